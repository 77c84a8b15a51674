import Verif.Proofs.Torn
import Verif.Proofs.Decode
import Verif.Props.Safety
/-! A proper prefix of an encoding is rejected. -/

set_option linter.unusedVariables false

namespace QP
open BytesReader Spec Gen

section
variable {T : Target} {pf : Prop} {α β : Type}

/-- Reading a proper prefix of `enc` that stands at the end of the buffer is rejected. -/
def TornAs (T : Target) (pf : Prop) {α : Type} (p : Bytes → RM α) (enc : Bytes) : Prop :=
  ∀ (pre : Bytes) (j fin : Nat), j < enc.length → Roomy T (pre ++ enc) → pre.length + enc.length ≤ fin →
    fin ≤ pre.length + 2 ^ 32 → Rejected pf (p (pre ++ enc.take j) ⟨pre.length, fin⟩).1

/-- The same for a decoder that runs up to the limit. -/
def TornAll (T : Target) (pf : Prop) {α : Type} (p : Bytes → RM α) (enc : Bytes) : Prop :=
  ∀ (pre : Bytes) (j : Nat), j < enc.length → Roomy T (pre ++ enc) →
    Rejected pf (p (pre ++ enc.take j) ⟨pre.length, pre.length + enc.length⟩).1

theorem Rejected.of {o : Out α} (h : Rejected False o) : Rejected pf o := by
  rcases h with h | ⟨h, _⟩
  · exact Or.inl h
  · exact h.elim

theorem TornAs.of {p : Bytes → RM α} {x : Bytes} (h : TornAs T False p x) : TornAs T pf p x :=
  fun pre j fin h1 h2 h3 h4 => (h pre j fin h1 h2 h3 h4).of

theorem Roomy.lt {b : Bytes} (h : Roomy T b) : b.length < 2 ^ T.usizeBits := by
  unfold Roomy at h; omega

theorem Roomy.mono {b c : Bytes} (h : Roomy T b) (hl : c.length ≤ b.length) : Roomy T c := by
  unfold Roomy at h ⊢; omega

/-- What reads a whole encoding, does not panic and stays inside the buffer, rejects every proper prefix. -/
theorem tornAs_of {p : Bytes → RM α} {x : Bytes} {a : α} (hr : ReadsAs T p x a) (hc : Cut False p) (hs : Steps T p) :
    TornAs T pf p x := by
  refine TornAs.of ?_
  intro pre j fin hj hR h1 h2
  have h3 := hr pre [] fin (by simpa using hR.lt) h1
  rw [List.append_nil] at h3
  have e : (pre ++ x).take (pre.length + j) = pre ++ x.take j := by
    rw [List.take_append, List.take_of_length_le (by omega)]; simp
  rcases hc (pre ++ x) (pre.length + j) _ _ _ h3 with h4 | h4
  · rw [e] at h4
    rcases hs (pre ++ x.take j) ⟨pre.length, fin⟩ (hR.mono (by simp; omega)) ⟨by simp only [List.length_append]; omega, by
        simp only [List.length_append]; omega⟩ with ⟨a', s', h5, h6, h7⟩ | ⟨e', r', h5⟩
    · rw [h4] at h5
      simp only [Prod.mk.injEq, BytesReader.mk.injEq] at h5
      rw [← h5.2.1] at h7
      simp only [List.length_append, List.length_take] at h7
      omega
    · rw [h4] at h5
      cases h5
  · rw [e] at h4; exact h4

theorem TornAs.bind {p : Bytes → RM α} {q : α → Bytes → RM β} {x y : Bytes} {a : α} (hr : ReadsAs T p x a)
    (hp : TornAs T pf p x) (hq : TornAs T pf (q a) y) : TornAs T pf (fun b => do let a ← p b; q a b) (x ++ y) := by
  intro pre j fin hj hR h1 h2
  simp only [List.length_append] at hj h1
  by_cases hx : j < x.length
  · rw [List.take_append_of_le_length (by omega)]
    exact (hp pre j fin hx (hR.mono (by simp)) (by omega) h2).bind
  · rw [List.take_append, List.take_of_length_le (by omega)]
    have hl := hR.lt
    simp only [List.length_append] at hl
    have h3 := hr pre (y.take (j - x.length)) fin (by simp only [List.length_append, List.length_take]; omega) (by omega)
    have h4 := hq (pre ++ x) (j - x.length) fin (by omega) (hR.mono (by simp)) (by simp; omega) (by simp; omega)
    rw [List.append_assoc, List.length_append] at h4
    simp only
    rw [SM.bind_ok h3]
    exact h4

theorem TornAs.map {p : Bytes → RM α} {x : Bytes} (hp : TornAs T pf p x) (f : α → β) :
    TornAs T pf (fun b => do let a ← p b; pure (f a)) x :=
  fun pre j fin hj hR h1 h2 => (hp pre j fin hj hR h1 h2).bind

theorem TornAll.map {p : Bytes → RM α} {x : Bytes} (hp : TornAll T pf p x) (f : α → β) :
    TornAll T pf (fun b => do let a ← p b; pure (f a)) x :=
  fun pre j hj hR => (hp pre j hj hR).bind

theorem tornAs_u8 (x : Byte) : TornAs T pf read_u8 [x] := tornAs_of (ReadsAs.u8 x) Cut.read_u8 Steps.u8

theorem tornAs_varint32 {n : Nat} (h : n < 2 ^ 64) : TornAs T pf read_varint32 (varint n) :=
  tornAs_of (reads_varint32 h) Cut.read_varint32 Steps.varint32

theorem tornAs_len {p : Bytes → RM α} {x : Bytes} (hx : x.length < 2 ^ 32) (hp : TornAll T pf p x) :
    TornAs T pf (fun b => read_len T (p b) x.length) x := by
  intro pre j fin hj hR h1 h2
  have hl := hR.lt
  simp only [List.length_append] at hl
  simp only [read_len, SM.bind_run, SM.get_run, SM.lift_run, usizeAdd_ok (T := T) (a := pre.length) (b := x.length) (by omega), SM.set_run]
  have := hp pre j hj hR
  rcases hm : p (pre ++ x.take j) ⟨pre.length, pre.length + x.length⟩ with ⟨o, r'⟩
  rw [hm] at this
  rcases this with ⟨e, h⟩ | ⟨hp, h⟩ <;> simp only at h <;> subst h
  · exact Or.inl ⟨e, rfl⟩
  · exact Or.inr ⟨hp, rfl⟩

theorem tornAs_len_varint {p : Bytes → RM α} {x : Bytes} (hx : x.length < 2 ^ 32) (hp : TornAll T pf p x) :
    TornAs T pf (fun b => read_len_varint T b (p b)) (delimited x) := by
  unfold delimited read_len_varint
  refine TornAs.bind (reads_varint32 (n := x.length) (by omega)) (tornAs_varint32 (by omega)) ?_
    (q := fun len bs => read_len T (p bs) len.toNat)
  have : (BitVec.ofNat 32 x.length).toNat = x.length := by
    rw [BitVec.toNat_ofNat, Nat.mod_eq_of_lt hx]
  rw [this]
  exact tornAs_len hx hp

theorem tornAll_loop {A I : Type} {step : Bytes → A → RM A} {enc : I → Bytes} {upd : A → I → A}
    (items : List I) (hne : ∀ i ∈ items, enc i ≠ [])
    (hstep : ∀ i ∈ items, ∀ acc, ReadsAs T (fun b => step b acc) (enc i) (upd acc i))
    (htorn : ∀ i ∈ items, ∀ acc, TornAs T pf (fun b => step b acc) (enc i))
    (acc : A) (fuel : Nat) (hf : items.length < fuel) (hlen : (items.flatMap enc).length ≤ 2 ^ 32) :
    TornAll T pf (fun b => whileNotEof (step b) fuel acc) (items.flatMap enc) := by
  intro pre j hj hR
  induction items generalizing pre acc fuel j with
  | nil => simp at hj
  | cons i items ih =>
    obtain ⟨fuel, rfl⟩ : ∃ k, fuel = k + 1 := ⟨fuel - 1, by simp only [List.length_cons] at hf; omega⟩
    have hi : 0 < (enc i).length := List.length_pos_iff.mpr (hne i (by simp))
    simp only [List.flatMap_cons, List.length_append] at hj hlen ⊢
    have hR' : Roomy T (pre ++ enc i) := hR.mono (by simp [List.flatMap_cons])
    have hnot : (⟨pre.length, pre.length + ((enc i).length + (items.flatMap enc).length)⟩ : BytesReader).is_eof = false := by
      simp only [BytesReader.is_eof, beq_eq_false_iff_ne]; omega
    simp only [whileNotEof, SM.bind_run, SM.get_run, SM.ite_run, hnot, Bool.false_eq_true, if_false]
    by_cases hx : j < (enc i).length
    · rw [List.take_append_of_le_length (by omega)]
      have := htorn i (by simp) acc pre j (pre.length + ((enc i).length + (items.flatMap enc).length)) hx hR' (by omega) (by omega)
      exact Rejected.bind this
    · rw [List.take_append, List.take_of_length_le (by omega)]
      have hl := hR.lt
      simp only [List.flatMap_cons, List.length_append] at hl
      have h3 := hstep i (by simp) acc pre ((items.flatMap enc).take (j - (enc i).length))
        (pre.length + ((enc i).length + (items.flatMap enc).length))
        (by simp only [List.length_append, List.length_take]; omega) (by omega)
      have h4 := ih (fun k hk => hne k (by simp [hk])) (fun k hk => hstep k (by simp [hk])) (fun k hk => htorn k (by simp [hk]))
        (upd acc i) fuel (by simp at hf; omega) (by omega) (pre ++ enc i) (j - (enc i).length) (by omega)
        (by rw [List.append_assoc]; simpa [List.flatMap_cons] using hR)
      simp only at h3
      rw [h3]
      rw [List.append_assoc, List.length_append] at h4
      simpa [Nat.add_assoc] using h4

/-- `read_packed_fixed` on a truncated payload: the slice is out of range. -/
theorem torn_packed_fixed (hpf : pf) (M : MemTy α) (hz : M.size ≠ 0) {body : Bytes} (hlen : body.length < 2 ^ 32)
    (hd : body.length / M.size * M.size = body.length) : TornAs T pf (BytesReader.read_packed_fixed T M) (delimited body) := by
  unfold delimited BytesReader.read_packed_fixed
  refine TornAs.bind (reads_varint32 (n := body.length) (by omega)) (tornAs_varint32 (by omega)) ?_
  have hn : (BitVec.ofNat 32 body.length).toNat = body.length := by
    rw [BitVec.toNat_ofNat, Nat.mod_eq_of_lt hlen]
  intro pre j fin hj hR h1 h2
  have hl := hR.lt
  simp only [List.length_append] at hl
  simp only [SM.bind_run, BytesReader.len, SM.get_run, SM.lift_run, hn]
  rw [usizeSub_ok (by omega)]
  simp only [SM.ite_run]
  rw [if_neg (by omega), if_neg hz]
  simp only [SM.bind_run, SM.get_run, SM.lift_run, hd]
  rw [usizeAdd_ok (by omega)]
  have hr : getRange (pre ++ body.take j) pre.length (pre.length + body.length) = none := by
    unfold getRange
    rw [if_neg]
    simp only [List.length_append, List.length_take]; omega
  simp only
  rw [hr]
  exact Or.inr ⟨hpf, rfl⟩

/-- `read_packed`. -/
theorem torn_packed {M N : Type} {read : Bytes → RM N} {enc : M → Bytes} {v : List M} (dec : M → N)
    (hr : ∀ m ∈ v, ReadsAs T read (enc m) (dec m)) (ht : ∀ m ∈ v, TornAs T pf read (enc m)) (hne : ∀ m ∈ v, enc m ≠ [])
    (hlen : (v.flatMap enc).length < 2 ^ 32) (fuel : Nat) (hf : v.length < fuel) :
    TornAs T pf (fun b => read_packed T fuel b (read b)) (delimited (v.flatMap enc)) := by
  refine tornAs_len_varint hlen (TornAll.map ?_ _)
  exact tornAll_loop (step := fun b (acc : List N) => do let m ← read b; pure (m :: acc)) (enc := enc)
    (upd := fun a m => dec m :: a) v hne (fun m hm acc => (hr m hm).map (fun m => m :: acc))
    (fun m hm acc => (ht m hm).map _) [] fuel hf (by omega)

/-- `read_map` on a key and a value. -/
theorem torn_entry {K V : Type} (wk wv : Nat) (hwk : wk < 8) (hwv : wv < 8)
    {ek ev : Bytes} {rk : Bytes → RM K} {rv : Bytes → RM V} {k : K} {v : V}
    (hk : ReadsAs T rk ek k) (hv : ReadsAs T rv ev v) (tk : TornAs T pf rk ek) (tv : TornAs T pf rv ev)
    (k0 : K) (v0 : V) (fuel : Nat) (hf : 2 < fuel) (hlen : ek.length + ev.length + 2 < 2 ^ 32) :
    TornAs T pf (fun b => read_map T fuel b k0 v0 (rk b) (rv b))
      (delimited (BitVec.ofNat 8 (8 + wk) :: ek ++ (BitVec.ofNat 8 (16 + wv) :: ev))) := by
  let items : List (EntryField Unit Unit) := [.key (), .val ()]
  let e : EntryField Unit Unit → Bytes := EntryField.enc wk wv (fun _ => ek) (fun _ => ev)
  let upd : K × V → EntryField Unit Unit → K × V := fun acc f =>
    match f with
    | .key _ => (k, acc.2)
    | .val _ => (acc.1, v)
  have he : items.flatMap e = BitVec.ofNat 8 (8 + wk) :: ek ++ (BitVec.ofNat 8 (16 + wv) :: ev) := by
    simp [items, e, EntryField.enc]
  have hel : (items.flatMap e).length < 2 ^ 32 := by rw [he]; simp; omega
  suffices h : TornAll T pf (fun bytes => whileNotEof (fun (kv : K × V) => do
      let t ← read_u8 bytes
      let n := t >>> 3
      if n = 1#8 then do
        let k ← rk bytes
        pure (k, kv.2)
      else if n = 2#8 then do
        let v ← rv bytes
        pure (kv.1, v)
      else SM.throw (.Map n)) fuel (k0, v0)) (items.flatMap e) by
    have := tornAs_len_varint hel h
    rw [he] at this
    exact this
  let q : K × V → Byte → Bytes → RM (K × V) := fun acc t bs =>
    if t >>> 3 = 1#8 then (do let k ← rk bs; pure (k, acc.2))
    else if t >>> 3 = 2#8 then (do let v ← rv bs; pure (acc.1, v))
    else SM.throw (.Map (t >>> 3))
  have hqk : ∀ acc, ReadsAs T (q acc (BitVec.ofNat 8 (8 + wk))) ek (k, acc.2) ∧ TornAs T pf (q acc (BitVec.ofNat 8 (8 + wk))) ek := by
    intro acc
    have := shift3 1 wk (by omega) hwk
    rw [Nat.mul_one] at this
    simp only [q, this, if_true]
    exact ⟨hk.map (fun k => (k, acc.2)), tk.map _⟩
  have hqv : ∀ acc, ReadsAs T (q acc (BitVec.ofNat 8 (16 + wv))) ev (acc.1, v) ∧ TornAs T pf (q acc (BitVec.ofNat 8 (16 + wv))) ev := by
    intro acc
    have := shift3 2 wv (by omega) hwv
    rw [show 8 * 2 = 16 from rfl] at this
    have h21 : (2#8 = 1#8) = False := by decide
    simp only [q, this, if_true, h21, if_false]
    exact ⟨hv.map (fun v => (acc.1, v)), tv.map _⟩
  refine tornAll_loop (upd := upd) items ?_ ?_ ?_ (k0, v0) fuel (by simpa [items] using hf) (by omega)
  · intro f _; cases f <;> simp [e, EntryField.enc]
  · intro f _ acc
    cases f with
    | key _ => exact ReadsAs.bind (ReadsAs.u8 _) (hqk acc).1
    | val _ => exact ReadsAs.bind (ReadsAs.u8 _) (hqv acc).1
  · intro f _ acc
    cases f with
    | key _ => exact TornAs.bind (ReadsAs.u8 _) (tornAs_u8 _) (hqk acc).2
    | val _ => exact TornAs.bind (ReadsAs.u8 _) (tornAs_u8 _) (hqv acc).2

end

namespace Gen
open QP.Pbrs

section
variable {C : Ctx} {pf : Prop} {rd : MessageIndex → Bytes → RM RVal} {enc : MessageIndex → RVal → Bytes}
  {sub : MessageIndex → RVal → Prop}

theorem le_all_length {w : Nat} (k : Nat) (l : List (BitVec w)) : (l.flatMap (fun x => le k x.toNat)).length = l.length * k := by
  induction l with
  | nil => simp
  | cons x l ih =>
    rw [List.flatMap_cons, List.length_append, ih, length_le, List.length_cons, Nat.add_mul, Nat.one_mul, Nat.add_comm]

theorem readTyp_torn {B : Nat} (hB : B ≤ 2 ^ 32)
    (hsub : ∀ m v, sub m v → (enc m v).length < B →
      ∃ v', v'.obs = v.obs ∧ ReadsAll C.T (rd m) (enc m v) v')
    (htorn : ∀ m v, sub m v → (enc m v).length < B → TornAll C.T pf (rd m) (enc m v))
    {t : FieldType} {v : RVal} (h : HasType C sub t v) (hlen : (encTyp enc t v).length ≤ B) :
    TornAs C.T pf (readTyp C rd t) (encTyp enc t v) := by
  obtain ⟨v', _, hr⟩ := readTyp_ok hB hsub h hlen
  have flat : FlatType t → TornAs C.T pf (readTyp C rd t) (encTyp enc t v) := fun hf => by
    have e : readTyp C rd t = readTyp C (fun _ _ => SM.lift .panic) t := by
      cases t <;> first | rfl | exact hf.elim
    refine tornAs_of hr ?_ (steps_readTyp hf)
    rw [e]
    exact cut_readTyp (fun _ => Cut.const _) t
  cases t
  case message m =>
    have e : encTyp enc (.message m) v = delimited (enc m v) := by cases v <;> rfl
    rw [e] at hlen ⊢
    have := delimited_length (enc m v)
    exact tornAs_len_varint (by omega) (htorn m v h (by omega))
  case map => exact h.elim
  case messageOrEnum => exact h.elim
  all_goals exact flat trivial

/-- A truncated payload is rejected. -/
theorem armRead_torn {Q : Field → RVal → Prop} (hT : C.T.bigEndian = false) {B fuel : Nat} (hB : B ≤ 2 ^ 32)
    (hfuel : B < fuel)
    (hsub : ∀ m v, sub m v → (enc m v).length < B →
      ∃ v', v'.obs = v.obs ∧ ReadsAll C.T (rd m) (enc m v) v')
    (htorn : ∀ m v, sub m v → (enc m v).length < B → TornAll C.T pf (rd m) (enc m v))
    {mem : Member} (hok : MemberOk mem) {v : RVal} (h : MemberTyped C Q sub mem v) (j : Nat)
    {it : Item} (hit : it ∈ memberItems C j mem v) (hlen : (itemPayload enc it).length ≤ B)
    (hpk : ∀ f, mem = .field f → isPackedFixed f = true → f.frequency.generated = .arrayLike → pf) :
    TornAs C.T pf (armRead C rd fuel it.1) (itemPayload enc it) := by
  obtain ⟨a, x⟩ := it
  cases mem with
  | oneof fs =>
    rcases h with rfl | ⟨i, f, y, hi, rfl, hy⟩
    · simp [memberItems] at hit
    · simp only [memberItems, hi, List.mem_singleton, Prod.mk.injEq] at hit
      obtain ⟨rfl, rfl⟩ := hit
      simp only [itemPayload, Option.isSome_some, if_true] at hlen ⊢
      exact readTyp_torn hB hsub htorn hy hlen
  | field f =>
    have hok : FieldOk f := hok
    simp only [MemberTyped, FieldTyped] at h
    simp only [memberItems] at hit
    cases hg : f.frequency.generated
    · -- singular
      simp only [hg] at h hit
      have key : HasType C sub f.typ x ∧ a = ⟨j, f, Option.none⟩ := by
        cases ho : f.frequency.isOptional
        · simp only [ho, Bool.false_eq_true, if_false] at h hit
          have : (if f.hasPresence = true then [v]
            else if scalarEq f.typ v (fieldDefault C f) = true then [] else [v]) = [v] ∨
            (if f.hasPresence = true then [v]
            else if scalarEq f.typ v (fieldDefault C f) = true then [] else [v]) = [] := by
            split
            · exact Or.inl rfl
            · split
              · exact Or.inr rfl
              · exact Or.inl rfl
          rcases this with e | e
          · rw [e] at hit
            simp only [List.map_cons, List.map_nil, List.mem_singleton, Prod.mk.injEq] at hit
            exact ⟨hit.2 ▸ h.1, hit.1⟩
          · rw [e] at hit; simp at hit
        · simp only [ho, if_true] at h hit
          rcases h with rfl | ⟨y, rfl, hy⟩
          · simp at hit
          · simp only [List.map_cons, List.map_nil, List.mem_singleton, Prod.mk.injEq] at hit
            exact ⟨hit.2 ▸ hy, hit.1⟩
      obtain ⟨hx, rfl⟩ := key
      have e1 : itemPayload enc (⟨j, f, Option.none⟩, x) = encTyp enc f.typ x := by
        simp [itemPayload, hg]
      have e2 : armRead C rd fuel ⟨j, f, Option.none⟩ = readTyp C rd f.typ := by
        funext b; simp [armRead, hg]
      rw [e1] at hlen ⊢
      rw [e2]
      exact readTyp_torn hB hsub htorn hx hlen
    · -- repeated
      have hb : f.boxed = false := by
        cases hb : f.boxed
        · rfl
        · have := hok.boxed hb
          rw [(generated_array hg).2.2] at this; cases this
      simp only [hg] at h hit
      cases hp : f.isPacked
      · simp only [isPackedFixed, hp, Bool.false_and, Bool.false_eq_true, if_false] at h hit
        obtain ⟨l, rfl, hl⟩ := h
        obtain ⟨y, hy, he⟩ := List.mem_map.mp hit
        simp only [Prod.mk.injEq] at he
        obtain ⟨rfl, rfl⟩ := he
        have e1 : itemPayload enc (⟨j, f, Option.none⟩, y) = encTyp enc f.typ y := by
          simp [itemPayload, hg, hp]
        have e2 : armRead C rd fuel ⟨j, f, Option.none⟩ = readTyp C rd f.typ := by
          funext b; simp [armRead, hg, hp]
        rw [e1] at hlen ⊢
        rw [e2]
        exact readTyp_torn hB hsub htorn (hl y hy) hlen
      · cases hfx : f.typ.isFixedSize
        · simp only [isPackedFixed, hp, hfx, Bool.and_false, Bool.false_eq_true, if_false, if_true] at h hit
          obtain ⟨l, rfl, hl⟩ := h
          have hit' : x = .vec l ∧ a = ⟨j, f, Option.none⟩ := by
            cases hE : l.isEmpty
            · simp only [hE, Bool.false_eq_true, if_false, List.map_cons, List.map_nil,
                List.mem_singleton, Prod.mk.injEq] at hit
              exact ⟨hit.2, hit.1⟩
            · simp [hE] at hit
          obtain ⟨rfl, rfl⟩ := hit'
          have e1 : itemPayload enc (⟨j, f, Option.none⟩, .vec l)
              = delimited (l.flatMap (encTyp enc f.typ)) := by
            simp [itemPayload, hg, hp]
          have e2 : armRead C rd fuel ⟨j, f, Option.none⟩ = fun b => (do
              let l ← read_packed C.T fuel b (readTyp C rd f.typ b)
              pure (.vec l)) := by
            funext b; simp [armRead, hg, hp, hb, hfx]
          rw [e1] at hlen ⊢
          rw [e2]
          have hd := delimited_length (l.flatMap (encTyp enc f.typ))
          have hne : ∀ m ∈ l, encTyp enc f.typ m ≠ [] := fun m hm => encTyp_ne_nil (hl m hm)
          have hll := length_le_flatMap hne
          obtain ⟨dec, hdec⟩ := choose_on RVal.none (l := l) (fun y hy =>
            readTyp_ok hB hsub (hl y hy) (by
              have : (encTyp enc f.typ y).length ≤ (l.flatMap (encTyp enc f.typ)).length := by
                exact length_mem_flatMap hy
              omega))
          exact (torn_packed dec (fun m hm => (hdec m hm).2) (fun y hy => readTyp_torn hB hsub htorn (hl y hy) (by
              have : (encTyp enc f.typ y).length ≤ (l.flatMap (encTyp enc f.typ)).length := by
                exact length_mem_flatMap hy
              omega)) hne (by omega) fuel (by omega)).map RVal.vec
        · simp only [isPackedFixed, hp, hfx, Bool.and_self, if_true] at h hit
          by_cases hw : f.typ.wireTypeNumNonPacked = 1
          · rw [if_pos hw] at h
            obtain ⟨p, rfl, hpf⟩ := h
            have hit' : x = .pf64 p ∧ a = ⟨j, f, Option.none⟩ := by
              cases hE : (pfElems p).isEmpty
              · simp only [hE, Bool.false_eq_true, if_false, List.map_cons, List.map_nil,
                  List.mem_singleton, Prod.mk.injEq] at hit
                exact ⟨hit.2, hit.1⟩
              · simp [hE] at hit
            obtain ⟨rfl, rfl⟩ := hit'
            have e1 : itemPayload enc (⟨j, f, Option.none⟩, .pf64 p)
                = delimited ((pfElems p).flatMap (fun x => le 8 x.toNat)) := by
              simp [itemPayload, hg, hp]
            have e2 : armRead C rd fuel ⟨j, f, Option.none⟩ = fun b => (do
                let p ← read_packed_fixed C.T (MemTy.int C.T 8) b
                pure (.pf64 p)) := by
              funext b; simp [armRead, hg, hp, hb, hfx, hw]
            rw [e1] at hlen ⊢
            rw [e2]
            have hd := delimited_length ((pfElems p).flatMap (fun x => le 8 x.toNat))
            exact (torn_packed_fixed (hpk f rfl (by simp [isPackedFixed, hp, hfx]) hg) (MemTy.int C.T 8) (by show 8 ≠ 0; omega) (by omega)
              (by
                have h2 : ((pfElems p).flatMap (fun x => le 8 x.toNat)).length = (pfElems p).length * 8 := by
                  exact le_all_length _ _
                rw [h2]; show _ / 8 * 8 = _; omega)).map RVal.pf64
          · rw [if_neg hw] at h
            obtain ⟨p, rfl, hpf⟩ := h
            have hit' : x = .pf32 p ∧ a = ⟨j, f, Option.none⟩ := by
              cases hE : (pfElems p).isEmpty
              · simp only [hE, Bool.false_eq_true, if_false, List.map_cons, List.map_nil,
                  List.mem_singleton, Prod.mk.injEq] at hit
                exact ⟨hit.2, hit.1⟩
              · simp [hE] at hit
            obtain ⟨rfl, rfl⟩ := hit'
            have e1 : itemPayload enc (⟨j, f, Option.none⟩, .pf32 p)
                = delimited ((pfElems p).flatMap (fun x => le 4 x.toNat)) := by
              simp [itemPayload, hg, hp]
            have e2 : armRead C rd fuel ⟨j, f, Option.none⟩ = fun b => (do
                let p ← read_packed_fixed C.T (MemTy.int C.T 4) b
                pure (.pf32 p)) := by
              funext b; simp [armRead, hg, hp, hb, hfx, hw]
            rw [e1] at hlen ⊢
            rw [e2]
            have hd := delimited_length ((pfElems p).flatMap (fun x => le 4 x.toNat))
            exact (torn_packed_fixed (hpk f rfl (by simp [isPackedFixed, hp, hfx]) hg) (MemTy.int C.T 4) (by show 4 ≠ 0; omega) (by omega)
              (by
                have h2 : ((pfElems p).flatMap (fun x => le 4 x.toNat)).length = (pfElems p).length * 4 := by
                  exact le_all_length _ _
                rw [h2]; show _ / 4 * 4 = _; omega)).map RVal.pf32
    · -- map
      have hb : f.boxed = false := by
        cases hb : f.boxed
        · rfl
        · have := hok.boxed hb
          rw [(generated_map hg).2.2] at this; cases this
      simp only [hg] at h hit
      obtain ⟨k, t, l, ht, rfl, hl, _⟩ := h
      simp only [List.map_map] at hit
      obtain ⟨e, he, hh⟩ := List.mem_map.mp hit
      simp only [Function.comp, Prod.mk.injEq] at hh
      obtain ⟨rfl, rfl⟩ := hh
      obtain ⟨k1, v1⟩ := e
      have hkt := hl _ he
      have ek := wireTypeNum_lt k false
      have et := wireTypeNum_lt t false
      have e1 : itemPayload enc (⟨j, f, Option.none⟩, .map [(k1, v1)])
          = delimited (BitVec.ofNat 8 (8 + k.wireTypeNum false) :: encTyp enc k k1 ++
              (BitVec.ofNat 8 (16 + t.wireTypeNum false) :: encTyp enc t v1)) := by
        simp only [itemPayload, hg, ht, entryEnc, Spec.tag]
        rw [varint_small (by omega), varint_small (by omega)]
        simp
      have e2 : armRead C rd fuel ⟨j, f, Option.none⟩ = fun b => (do
          let kv ← read_map C.T fuel b (typDefault C k) (typDefault C t) (readTyp C rd k b)
            (readTyp C rd t b)
          pure (.map [kv])) := by
        funext b; simp [armRead, hg, hb, ht]
      rw [e1] at hlen ⊢
      rw [e2]
      have hd := delimited_length (BitVec.ofNat 8 (8 + k.wireTypeNum false) :: encTyp enc k k1 ++
              (BitVec.ofNat 8 (16 + t.wireTypeNum false) :: encTyp enc t v1))
      simp only [List.length_append, List.length_cons] at hd hlen
      obtain ⟨k', ho, hr⟩ := readTyp_ok hB hsub hkt.1 (by simp only at *; omega)
      obtain ⟨v', ho', hr'⟩ := readTyp_ok hB hsub hkt.2 (by simp only at *; omega)
      exact (torn_entry _ _ ek et hr hr' (readTyp_torn hB hsub htorn hkt.1 (by simp only at *; omega))
        (readTyp_torn hB hsub htorn hkt.2 (by simp only at *; omega)) (typDefault C k) (typDefault C t) fuel
        (by omega) (by simp only; omega)).map (fun kv => RVal.map [kv])

end

/-- **A message.** Every proper prefix of the wire form of a value, read with the limit where the whole
ended, is rejected. -/
theorem fromReader_torn {C : Ctx} (hT : C.T.bigEndian = false) (hS : SchemaOk C) (hD : IsDefault C)
    (n : Nat) : ∀ idx v, WellTyped C (Restorable C) n idx v → (encMsg C n idx v).length < 2 ^ 32 →
      ∀ k, (encMsg C n idx v).length < k → TornAll C.T (HasPackedFixed C) (fromReader C k idx) (encMsg C n idx v) := by
  induction n with
  | zero => intro idx v h; exact h.elim
  | succ n ih =>
    rintro idx v ⟨m, slots, hm, rfl, hlen, hmem⟩ hB k hk
    obtain ⟨k, rfl⟩ : ∃ k', k = k' + 1 := ⟨k - 1, by omega⟩
    have hok := hS idx m hm
    have he : encMsg C (n + 1) idx (.struct slots) = (msgItems C m slots).flatMap (itemEnc (encMsg C n)) := by
      simp only [encMsg, hm, RVal.slots]
    rw [he] at hB hk ⊢
    cases hu : m.isUnit
    · have hne : ∀ it ∈ msgItems C m slots, itemEnc (encMsg C n) it ≠ [] := by
        intro it _ h0
        have := varint_ne_nil (fieldTag it.1.field)
        simp [itemEnc, this] at h0
      have hpl : ∀ it ∈ msgItems C m slots, (itemPayload (encMsg C n) it).length
              ≤ ((msgItems C m slots).flatMap (itemEnc (encMsg C n))).length := by
        intro it hit
        have hl : (itemEnc (encMsg C n) it).length ≤ _ := length_mem_flatMap hit
        have hpos := length_varint_pos (fieldTag it.1.field)
        rw [itemEnc, List.length_append] at hl; omega
      have hsub : ∀ m' v', WellTyped C (Restorable C) n m' v' → (encMsg C n m' v').length < ((msgItems C m slots).flatMap (itemEnc (encMsg C n))).length →
          ∃ v'', v''.obs = v'.obs ∧ ReadsAll C.T (fromReader C k m') (encMsg C n m' v') v'' :=
        fun m' v' h' hlt => fromReader_ok hT hS hD n m' v' h' (by omega) k (by omega)
      obtain ⟨dec, hdec⟩ := choose_on RVal.none (l := msgItems C m slots)
        (P := fun it p' =>
          ReadsAs C.T (armRead C (fromReader C k) (k + 1) it.1) (itemPayload (encMsg C n) it) p')
        (fun it hit => by
          obtain ⟨mem, v, _, h2, h3, _⟩ := mem_msgItems hit
          obtain ⟨p', _, h⟩ := armRead_ok hT (B := ((msgItems C m slots).flatMap (itemEnc (encMsg C n))).length)
            (by omega) (by omega) hsub (hok.members mem (List.of_mem_zip h2).1) (hmem _ h2) _ h3 (hpl it hit)
          exact ⟨p', h⟩)
      have hdt : ∀ it ∈ msgItems C m slots,
          TornAs C.T (HasPackedFixed C) (armRead C (fromReader C k) (k + 1) it.1) (itemPayload (encMsg C n) it) := by
        intro it hit
        obtain ⟨mem, v, _, h2, h3, _⟩ := mem_msgItems hit
        exact armRead_torn hT (B := ((msgItems C m slots).flatMap (itemEnc (encMsg C n))).length)
          (by omega) (by omega) hsub (fun m' v' h' hlt => ih m' v' h' (by omega) k (by omega))
          (hok.members mem (List.of_mem_zip h2).1) (hmem _ h2) _ h3 (hpl it hit)
          (fun f hf hp hg => ⟨idx, m, f, hm, hf ▸ (List.of_mem_zip h2).1, hp, hg⟩)
      have hcount := length_le_flatMap hne
      have htag : ∀ it ∈ msgItems C m slots, ReadsAs C.T next_tag (varint (fieldTag it.1.field)) it.1.field.tag ∧
          TornAs C.T (HasPackedFixed C) next_tag (varint (fieldTag it.1.field)) := by
        intro it hit
        obtain ⟨_, _, _, _, _, harm⟩ := mem_msgItems hit
        have hn := arm_number hok harm
        have ht := fieldTag_eq hn
        have h64 : fieldTag it.1.field < 2 ^ 64 := by rw [← ht]; have := it.1.field.tag.isLt; omega
        refine ⟨?_, tornAs_varint32 h64⟩
        have := reads_varint32 (T := C.T) (n := fieldTag it.1.field) h64
        rw [← ht, BitVec.ofNat_toNat, BitVec.setWidth_eq] at this
        rw [← ht]; exact this
      have hloop := tornAll_loop (T := C.T) (pf := HasPackedFixed C) (enc := itemEnc (encMsg C n)) (upd := fun s it => applyItem s (it.1, dec it))
        (step := fun b acc => msgStep C (fromReader C k) (k + 1) (arms C.cfg m) b acc) (msgItems C m slots) hne
        (fun it hit acc => by
          obtain ⟨_, _, _, _, _, harm⟩ := mem_msgItems hit
          exact msgStep_known (find_arm hok harm rfl) (htag it hit).1 (hdec it hit) acc)
        (fun it hit acc => by
          obtain ⟨_, _, _, _, _, harm⟩ := mem_msgItems hit
          unfold msgStep
          refine TornAs.bind (htag it hit).1 (htag it hit).2 (q := fun t b =>
            (match (arms C.cfg m).find? (fun a => a.field.tag == t) with
              | Option.some a => do
                let v ← armRead C (fromReader C k) (k + 1) a b
                pure (setSlot a.slot (fun old => armApply a old v) acc)
              | Option.none => do
                read_unknown C.T b t
                pure acc)) ?_
          simp only [find_arm hok harm rfl]
          exact (hdt it hit).map _)
        (C.dflt idx).slots (k + 1) (by omega) (by omega)
      intro pre j hj hR
      simp only [fromReader, hm, hu, Bool.false_eq_true, if_false]
      exact Rejected.bind (hloop pre j hj hR)
    · have h0 : members C.cfg m = [] := isUnit_members hu
      have hs : slots = [] := List.eq_nil_of_length_eq_zero (by rw [hlen, h0]; rfl)
      subst hs
      have hi : msgItems C m [] = [] := by simp [msgItems]
      rw [hi]
      intro pre j hj
      simp at hj

end Gen
end QP
