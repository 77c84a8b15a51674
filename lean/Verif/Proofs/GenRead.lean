import Verif.Proofs.GenWrite
import Verif.Props.Varint
import Verif.Props.Reader
/-! Generated `from_reader` on the wire form of a value. -/

set_option linter.unusedVariables false

namespace QP.Gen
open QP.Pbrs Spec BytesReader

/-! ### `obs` -/

theorem obsList_eq (l : List RVal) : RVal.obsList l = l.map RVal.obs := by
  induction l with
  | nil => rfl
  | cons v l ih => simp only [RVal.obsList, List.map_cons, ih]

theorem obsEntries_eq (l : List (RVal × RVal)) :
    RVal.obsEntries l = l.map (fun e => (e.1.obs, e.2.obs)) := by
  induction l with
  | nil => rfl
  | cons v l ih => obtain ⟨a, b⟩ := v; simp only [RVal.obsEntries, List.map_cons, ih]

theorem keyEq_obs (a b : RVal) : keyEq a.obs b.obs = keyEq a b := by
  cases a <;> cases b <;> simp [RVal.obs, keyEq, scalarEq]

theorem insertKV_obs (k v : RVal) (l : List (RVal × RVal)) :
    RVal.obsEntries (insertKV k v l) = insertKV k.obs v.obs (RVal.obsEntries l) := by
  induction l with
  | nil => simp [insertKV, RVal.obsEntries]
  | cons e l ih =>
    obtain ⟨k', v'⟩ := e
    simp only [insertKV, RVal.obsEntries, keyEq_obs]
    split
    · simp [RVal.obsEntries]
    · simp [RVal.obsEntries, ih]

theorem armApply_obs (a : Arm) (old new : RVal) :
    (armApply a old new).obs = armApply a old.obs new.obs := by
  unfold armApply
  cases a.choice with
  | some i => simp [RVal.obs]
  | none =>
    simp only
    cases a.field.boxed
    · simp only [Bool.false_eq_true, if_false]
      cases a.field.frequency.generated
      · simp only
        cases a.field.frequency.isOptional <;> simp [RVal.obs]
      · simp only
        cases a.field.isPacked
        · simp only [Bool.false_eq_true, if_false]
          cases old <;> simp [RVal.obs, obsList_eq]
        · simp
      · simp only
        cases old <;> try simp [RVal.obs]
        cases new <;> try simp [RVal.obs]
        rename_i l l'
        match l' with
        | [] => simp [RVal.obs, RVal.obsEntries]
        | [(k, v)] => simp [RVal.obs, RVal.obsEntries, insertKV_obs]
        | e1 :: e2 :: l'' =>
          obtain ⟨a1, b1⟩ := e1
          obtain ⟨a2, b2⟩ := e2
          simp [RVal.obs, RVal.obsEntries]
    · simp [RVal.obs]

theorem modify_map {α β : Type} (g : α → β) (f : α → α) (f' : β → β) (h : ∀ a, g (f a) = f' (g a))
    (l : List α) (j : Nat) : (l.modify j f).map g = (l.map g).modify j f' := by
  induction l generalizing j with
  | nil => cases j <;> simp
  | cons a l ih => cases j <;> simp [h, ih]

/-- Store a record. -/
def applyItem (slots : List RVal) (it : Item) : List RVal :=
  setSlot it.1.slot (fun old => armApply it.1 old it.2) slots

theorem applyItem_obs (slots : List RVal) (it : Item) (p' : RVal) (h : p'.obs = it.2.obs) :
    (applyItem slots (it.1, p')).map RVal.obs
      = applyItem (slots.map RVal.obs) (it.1, it.2.obs) := by
  unfold applyItem setSlot
  exact modify_map _ _ _ (fun a => by rw [armApply_obs, h]) _ _

theorem foldl_obs (dec : Item → RVal) (items : List Item) (h : ∀ it ∈ items, (dec it).obs = it.2.obs)
    (slots : List RVal) :
    (items.foldl (fun s it => applyItem s (it.1, dec it)) slots).map RVal.obs
      = (items.map (fun it => (it.1, it.2.obs))).foldl applyItem (slots.map RVal.obs) := by
  induction items generalizing slots with
  | nil => rfl
  | cons it items ih =>
    simp only [List.foldl_cons, List.map_cons]
    rw [ih (fun x hx => h x (by simp [hx])), applyItem_obs _ _ _ (h it (by simp))]

/-! ### one value -/

section
variable {C : Ctx} {sub : MessageIndex → RVal → Prop} {rd : MessageIndex → Bytes → RM RVal}
  {enc : MessageIndex → RVal → Bytes}

theorem delimited_length (x : Bytes) : x.length < (delimited x).length := by
  have := length_varint_pos x.length
  unfold delimited; rw [List.length_append]; omega

theorem encTyp_ne_nil {t : FieldType} {v : RVal} (h : HasType C sub t v) : encTyp enc t v ≠ [] := by
  have hd : ∀ b, delimited b ≠ [] := by
    intro b h; have := delimited_length b; rw [h] at this; simp at this
  have hl : ∀ k n, 0 < k → le k n ≠ [] := by
    intro k n hk h; have := length_le k n; rw [h] at this; simp at this; omega
  cases t <;> simp only [HasType] at h
  case message m => cases v <;> exact hd _
  case enum => obtain ⟨x, rfl, _⟩ := h; exact varint_ne_nil _
  case stringCow => obtain ⟨x, rfl, _⟩ := h; exact hd _
  case string_ => obtain ⟨x, rfl, _⟩ := h; exact hd _
  all_goals obtain ⟨x, rfl⟩ := h
  all_goals first | exact varint_ne_nil _ | exact hd _ | exact hl _ _ (by omega)

theorem readTyp_ok {B : Nat} (hB : B ≤ 2 ^ 32)
    (hsub : ∀ m v, sub m v → (enc m v).length < B →
      ∃ v', v'.obs = v.obs ∧ ReadsAll C.T (rd m) (enc m v) v')
    {t : FieldType} {v : RVal} (h : HasType C sub t v) (hlen : (encTyp enc t v).length ≤ B) :
    ∃ v', v'.obs = v.obs ∧ ReadsAs C.T (readTyp C rd t) (encTyp enc t v) v' := by
  have hs := C06_scalars_roundtrip C.T
  have hi32 : ∀ v : BitVec 32, ReadsAs C.T read_int32 (varint (twos64 v.toInt)) v := by
    intro v
    have := reads_varint32 (T := C.T) (twos64_lt v.toInt)
    rwa [twos64_mod32] at this
  cases t <;> simp only [HasType] at h
  case int32 => obtain ⟨x, rfl⟩ := h; exact ⟨_, rfl, (hi32 x).map RVal.w32⟩
  case uint32 =>
    obtain ⟨x, rfl⟩ := h
    have := reads_varint32 (T := C.T) (n := x.toNat) (by have := x.isLt; omega)
    rw [BitVec.ofNat_toNat, BitVec.setWidth_eq] at this
    exact ⟨_, rfl, this.map RVal.w32⟩
  case sint32 =>
    obtain ⟨x, rfl⟩ := h
    obtain ⟨e, h1, h2⟩ := hs.2.2.2.2.1 x
    have he := h1.unique (emits_sint32 x)
    rw [sint32Wire_eq] at he
    subst he
    exact ⟨_, rfl, h2.map RVal.w32⟩
  case int64 =>
    obtain ⟨x, rfl⟩ := h
    have := reads_varint64 (T := C.T) (n := x.toNat) x.isLt
    rw [BitVec.ofNat_toNat, BitVec.setWidth_eq] at this
    refine ⟨_, rfl, ?_⟩
    simp only [encTyp, twos64_toInt]
    exact this.map RVal.w64
  case uint64 =>
    obtain ⟨x, rfl⟩ := h
    have := reads_varint64 (T := C.T) (n := x.toNat) x.isLt
    rw [BitVec.ofNat_toNat, BitVec.setWidth_eq] at this
    exact ⟨_, rfl, this.map RVal.w64⟩
  case sint64 =>
    obtain ⟨x, rfl⟩ := h
    obtain ⟨e, h1, h2⟩ := hs.2.2.2.2.2.1 x
    have he := h1.unique (emits_sint64 x)
    subst he
    exact ⟨_, rfl, h2.map RVal.w64⟩
  case bool =>
    obtain ⟨x, rfl⟩ := h
    refine ⟨_, rfl, ?_⟩
    have := (reads_varint32 (T := C.T) (n := if x then 1 else 0) (by split <;> omega)).map (fun i => i != 0#32)
    have h2 : ReadsAs C.T read_bool (varint (if x then 1 else 0)) x := by
      cases x <;> exact this
    exact h2.map RVal.bool
  case enum e =>
    obtain ⟨x, rfl, hx⟩ := h
    refine ⟨_, rfl, ?_⟩
    have := (hi32 x).map (enumFrom (C.enumNums e))
    rw [show enumFrom (C.enumNums e) x = x by unfold enumFrom; rw [if_pos hx]] at this
    exact ReadsAs.map RVal.w32 this (p := read_enum (enumFrom (C.enumNums e)))
  case fixed64 => obtain ⟨x, rfl⟩ := h; exact ⟨_, rfl, ((C08_fixed_roundtrip C.T).2 x).2.2.2.1.map RVal.w64⟩
  case sfixed64 => obtain ⟨x, rfl⟩ := h; exact ⟨_, rfl, ((C08_fixed_roundtrip C.T).2 x).2.2.2.2.1.map RVal.w64⟩
  case double => obtain ⟨x, rfl⟩ := h; exact ⟨_, rfl, ((C08_fixed_roundtrip C.T).2 x).2.2.2.2.2.map RVal.w64⟩
  case fixed32 => obtain ⟨x, rfl⟩ := h; exact ⟨_, rfl, ((C08_fixed_roundtrip C.T).1 x).2.2.2.1.map RVal.w32⟩
  case sfixed32 => obtain ⟨x, rfl⟩ := h; exact ⟨_, rfl, ((C08_fixed_roundtrip C.T).1 x).2.2.2.2.1.map RVal.w32⟩
  case float => obtain ⟨x, rfl⟩ := h; exact ⟨_, rfl, ((C08_fixed_roundtrip C.T).1 x).2.2.2.2.2.map RVal.w32⟩
  case stringCow =>
    obtain ⟨b, rfl, hu⟩ := h
    have := delimited_length b
    simp only [encTyp] at hlen ⊢
    exact ⟨_, rfl, (reads_string (by omega) hu).map RVal.bytes⟩
  case string_ =>
    obtain ⟨b, rfl, hu⟩ := h
    have := delimited_length b
    simp only [encTyp] at hlen ⊢
    exact ⟨_, rfl, (reads_string (by omega) hu).map RVal.bytes⟩
  case bytesCow =>
    obtain ⟨b, rfl⟩ := h
    have := delimited_length b
    simp only [encTyp] at hlen ⊢
    exact ⟨_, rfl, (reads_bytes (by omega)).map RVal.bytes⟩
  case bytes_ =>
    obtain ⟨b, rfl⟩ := h
    have := delimited_length b
    simp only [encTyp] at hlen ⊢
    exact ⟨_, rfl, (reads_bytes (by omega)).map RVal.bytes⟩
  case message m =>
    have e : encTyp enc (.message m) v = delimited (enc m v) := by cases v <;> rfl
    rw [e] at hlen ⊢
    have := delimited_length (enc m v)
    obtain ⟨v', ho, hr⟩ := hsub m v h (by omega)
    exact ⟨v', ho, readsAs_len_varint (by omega) hr.weak⟩

theorem choose_on {α β : Type} (default : β) {P : α → β → Prop} {l : List α}
    (h : ∀ x ∈ l, ∃ y, P x y) : ∃ dec : α → β, ∀ x ∈ l, P x (dec x) := by
  classical
  refine ⟨fun x => if hx : ∃ y, P x y then hx.choose else default, fun x hx => ?_⟩
  have := h x hx
  simp only [this, dite_true]
  exact this.choose_spec

theorem foldl_cons_map {α β : Type} (f : α → β) (l : List α) (acc : List β) :
    l.foldl (fun a m => f m :: a) acc = (l.map f).reverse ++ acc := by
  induction l generalizing acc with
  | nil => rfl
  | cons a l ih => simp [ih]

/-- `read_packed` on the concatenation of the encodings of `v`, decoded by `dec`. -/
theorem reads_packed_dec {T : Target} {M N : Type} {read : Bytes → RM N} {enc : M → Bytes}
    {v : List M} (dec : M → N)
    (hr : ∀ m ∈ v, ReadsAs T read (enc m) (dec m)) (hne : ∀ m ∈ v, enc m ≠ [])
    (hlen : (v.flatMap enc).length < 2 ^ 32) (fuel : Nat) (hf : v.length < fuel) :
    ReadsAs T (fun b => read_packed T fuel b (read b)) (delimited (v.flatMap enc)) (v.map dec) := by
  refine readsAs_len_varint hlen (fun pre suf hl => ⟨pre.length + (v.flatMap enc).length, ?_⟩)
  have hloop := readsAll_loop (T := T)
    (step := fun b (acc : List N) => do let m ← read b; pure (m :: acc)) (enc := enc)
    (upd := fun a m => dec m :: a) v hne
    (fun m hm acc => (hr m hm).map (fun m => m :: acc)) [] fuel hf pre suf hl
  rw [SM.bind_ok hloop, SM.pure_run, foldl_cons_map]
  simp

theorem length_le_flatMap {α : Type} {enc : α → Bytes} {v : List α} (hne : ∀ m ∈ v, enc m ≠ []) :
    v.length ≤ (v.flatMap enc).length := by
  induction v with
  | nil => simp
  | cons a v ih =>
    have h1 := ih (fun m hm => hne m (by simp [hm]))
    have h2 : 0 < (enc a).length := List.length_pos_iff.mpr (hne a (by simp))
    simp only [List.flatMap_cons, List.length_append, List.length_cons]; omega

theorem length_mem_flatMap {α : Type} {enc : α → Bytes} {v : List α} {a : α} (h : a ∈ v) :
    (enc a).length ≤ (v.flatMap enc).length := by
  induction v with
  | nil => simp at h
  | cons b v ih =>
    simp only [List.flatMap_cons, List.length_append]
    rcases List.mem_cons.mp h with rfl | h
    · omega
    · have := ih h; omega

/-- `read_map` on a key and a value. -/
theorem reads_entry {T : Target} {K V : Type} (wk wv : Nat) (hwk : wk < 8) (hwv : wv < 8)
    {ek ev : Bytes} {rk : Bytes → RM K} {rv : Bytes → RM V} {k : K} {v : V}
    (hk : ReadsAs T rk ek k) (hv : ReadsAs T rv ev v) (k0 : K) (v0 : V) (fuel : Nat) (hf : 2 < fuel)
    (hlen : ek.length + ev.length + 2 < 2 ^ 32) :
    ReadsAs T (fun b => read_map T fuel b k0 v0 (rk b) (rv b))
      (delimited (BitVec.ofNat 8 (8 + wk) :: ek ++ (BitVec.ofNat 8 (16 + wv) :: ev))) (k, v) := by
  let items : List (EntryField Unit Unit) := [.key (), .val ()]
  let e : EntryField Unit Unit → Bytes := EntryField.enc wk wv (fun _ => ek) (fun _ => ev)
  let upd : K × V → EntryField Unit Unit → K × V := fun acc f =>
    match f with
    | .key _ => (k, acc.2)
    | .val _ => (acc.1, v)
  have he : items.flatMap e = BitVec.ofNat 8 (8 + wk) :: ek ++ (BitVec.ofNat 8 (16 + wv) :: ev) := by
    simp [items, e, EntryField.enc]
  suffices h : ReadsAll T (fun bytes => whileNotEof (fun (kv : K × V) => do
      let t ← read_u8 bytes
      let n := t >>> 3
      if n = 1#8 then do
        let k ← rk bytes
        pure (k, kv.2)
      else if n = 2#8 then do
        let v ← rv bytes
        pure (kv.1, v)
      else SM.throw (.Map n)) fuel (k0, v0)) (items.flatMap e) (items.foldl upd (k0, v0)) by
    rw [he] at h
    exact readsAs_len_varint (by simp; omega) (fun pre suf hl => ⟨_, h pre suf hl⟩)
  refine readsAll_loop items ?_ ?_ (k0, v0) fuel (by simpa [items] using hf)
  · intro f _; cases f <;> simp [e, EntryField.enc]
  · intro f _ acc
    let q : Byte → Bytes → RM (K × V) := fun t bs =>
      if t >>> 3 = 1#8 then (do let k ← rk bs; pure (k, acc.2))
      else if t >>> 3 = 2#8 then (do let v ← rv bs; pure (acc.1, v))
      else SM.throw (.Map (t >>> 3))
    cases f with
    | key _ =>
      have hq : ReadsAs T (q (BitVec.ofNat 8 (8 + wk))) ek (k, acc.2) := by
        have := shift3 1 wk (by omega) hwk
        rw [Nat.mul_one] at this
        simp only [q, this, if_true]
        exact hk.map (fun k => (k, acc.2))
      exact ReadsAs.bind (ReadsAs.u8 _) hq
    | val _ =>
      have hq : ReadsAs T (q (BitVec.ofNat 8 (16 + wv))) ev (acc.1, v) := by
        have := shift3 2 wv (by omega) hwv
        rw [show 8 * 2 = 16 from rfl] at this
        have h21 : (2#8 = 1#8) = False := by decide
        simp only [q, this, if_true, h21, if_false]
        exact hv.map (fun v => (acc.1, v))
      exact ReadsAs.bind (ReadsAs.u8 _) hq

/-- A packed fixed list read from its encoding has the numbers that were written. -/
theorem reads_pf {T : Target} (hT : T.bigEndian = false) {k : Nat} (hk : 0 < k)
    (l : List (BitVec (8 * k))) (hlen : (l.flatMap (fun x => le k x.toNat)).length < 2 ^ 32) :
    ∃ p, pfElems p = l ∧ ReadsAs T (read_packed_fixed T (MemTy.int T k))
      (delimited (l.flatMap (fun x => le k x.toNat))) p := by
  have hM := MemTy.int_plain T k hk
  have hst : (MemTy.int T k).store = fun x => le k x.toNat := by
    funext x; simp [MemTy.int, hT, memLE_eq]
  have hl := store_all_length hM.toFaithful l
  rw [hst] at hl
  have hr := reads_packed_fixed (T := T) (MemTy.int T k) hM l (by rw [← hl]; exact hlen)
  rw [hst] at hr
  refine ⟨_, ?_, hr⟩
  have h1 : (PackedFixed.borrowed (l.flatMap fun x => le k x.toNat)).Denotes (MemTy.int T k) l := by
    show _ = _; rw [hst]
  have h2 := pfElems_denotes hT hk (PackedFixed.borrowed (l.flatMap fun x => le k x.toNat)) (by
    intro b hb
    cases hb
    rw [hl]; exact ⟨l.length, by rw [Nat.mul_comm]; rfl⟩)
  have h3 := (pf_into_vec hM h1).symm.trans (pf_into_vec hM h2)
  injection h3 with h3
  exact h3.symm

/-- Reading the payload of a record gives what was written, up to `obs`. -/
theorem armRead_ok {Q : Field → RVal → Prop} (hT : C.T.bigEndian = false) {B fuel : Nat} (hB : B ≤ 2 ^ 32)
    (hfuel : B < fuel)
    (hsub : ∀ m v, sub m v → (enc m v).length < B →
      ∃ v', v'.obs = v.obs ∧ ReadsAll C.T (rd m) (enc m v) v')
    {mem : Member} (hok : MemberOk mem) {v : RVal} (h : MemberTyped C Q sub mem v) (j : Nat)
    {it : Item} (hit : it ∈ memberItems C j mem v) (hlen : (itemPayload enc it).length ≤ B) :
    ∃ p', p'.obs = it.2.obs ∧ ReadsAs C.T (armRead C rd fuel it.1) (itemPayload enc it) p' := by
  obtain ⟨a, x⟩ := it
  cases mem with
  | oneof fs =>
    rcases h with rfl | ⟨i, f, y, hi, rfl, hy⟩
    · simp [memberItems] at hit
    · simp only [memberItems, hi, List.mem_singleton, Prod.mk.injEq] at hit
      obtain ⟨rfl, rfl⟩ := hit
      simp only [itemPayload, Option.isSome_some, if_true] at hlen ⊢
      exact readTyp_ok hB hsub hy hlen
  | field f =>
    have hok : FieldOk f := hok
    simp only [MemberTyped, FieldTyped] at h
    simp only [memberItems] at hit
    cases hg : f.frequency.generated
    · -- singular
      simp only [hg] at h hit
      have key : HasType C sub f.typ x ∧ a = ⟨j, f, Option.none⟩ := by
        cases ho : f.frequency.isOptional
        · simp only [ho, Bool.false_eq_true, if_false] at h hit
          have : (if f.hasPresence = true then [v]
            else if scalarEq f.typ v (fieldDefault C f) = true then [] else [v]) = [v] ∨
            (if f.hasPresence = true then [v]
            else if scalarEq f.typ v (fieldDefault C f) = true then [] else [v]) = [] := by
            split
            · exact Or.inl rfl
            · split
              · exact Or.inr rfl
              · exact Or.inl rfl
          rcases this with e | e
          · rw [e] at hit
            simp only [List.map_cons, List.map_nil, List.mem_singleton, Prod.mk.injEq] at hit
            exact ⟨hit.2 ▸ h.1, hit.1⟩
          · rw [e] at hit; simp at hit
        · simp only [ho, if_true] at h hit
          rcases h with rfl | ⟨y, rfl, hy⟩
          · simp at hit
          · simp only [List.map_cons, List.map_nil, List.mem_singleton, Prod.mk.injEq] at hit
            exact ⟨hit.2 ▸ hy, hit.1⟩
      obtain ⟨hx, rfl⟩ := key
      have e1 : itemPayload enc (⟨j, f, Option.none⟩, x) = encTyp enc f.typ x := by
        simp [itemPayload, hg]
      have e2 : armRead C rd fuel ⟨j, f, Option.none⟩ = readTyp C rd f.typ := by
        funext b; simp [armRead, hg]
      rw [e1] at hlen ⊢
      rw [e2]
      exact readTyp_ok hB hsub hx hlen
    · -- repeated
      have hb : f.boxed = false := by
        cases hb : f.boxed
        · rfl
        · have := hok.boxed hb
          rw [(generated_array hg).2.2] at this; cases this
      simp only [hg] at h hit
      cases hp : f.isPacked
      · simp only [isPackedFixed, hp, Bool.false_and, Bool.false_eq_true, if_false] at h hit
        obtain ⟨l, rfl, hl⟩ := h
        obtain ⟨y, hy, he⟩ := List.mem_map.mp hit
        simp only [Prod.mk.injEq] at he
        obtain ⟨rfl, rfl⟩ := he
        have e1 : itemPayload enc (⟨j, f, Option.none⟩, y) = encTyp enc f.typ y := by
          simp [itemPayload, hg, hp]
        have e2 : armRead C rd fuel ⟨j, f, Option.none⟩ = readTyp C rd f.typ := by
          funext b; simp [armRead, hg, hp]
        rw [e1] at hlen ⊢
        rw [e2]
        exact readTyp_ok hB hsub (hl y hy) hlen
      · cases hfx : f.typ.isFixedSize
        · simp only [isPackedFixed, hp, hfx, Bool.and_false, Bool.false_eq_true, if_false, if_true] at h hit
          obtain ⟨l, rfl, hl⟩ := h
          have hit' : x = .vec l ∧ a = ⟨j, f, Option.none⟩ := by
            cases hE : l.isEmpty
            · simp only [hE, Bool.false_eq_true, if_false, List.map_cons, List.map_nil,
                List.mem_singleton, Prod.mk.injEq] at hit
              exact ⟨hit.2, hit.1⟩
            · simp [hE] at hit
          obtain ⟨rfl, rfl⟩ := hit'
          have e1 : itemPayload enc (⟨j, f, Option.none⟩, .vec l)
              = delimited (l.flatMap (encTyp enc f.typ)) := by
            simp [itemPayload, hg, hp]
          have e2 : armRead C rd fuel ⟨j, f, Option.none⟩ = fun b => (do
              let l ← read_packed C.T fuel b (readTyp C rd f.typ b)
              pure (.vec l)) := by
            funext b; simp [armRead, hg, hp, hb, hfx]
          rw [e1] at hlen ⊢
          rw [e2]
          have hd := delimited_length (l.flatMap (encTyp enc f.typ))
          have hne : ∀ m ∈ l, encTyp enc f.typ m ≠ [] := fun m hm => encTyp_ne_nil (hl m hm)
          have hll := length_le_flatMap hne
          obtain ⟨dec, hdec⟩ := choose_on RVal.none (l := l) (fun y hy =>
            readTyp_ok hB hsub (hl y hy) (by
              have : (encTyp enc f.typ y).length ≤ (l.flatMap (encTyp enc f.typ)).length := by
                exact length_mem_flatMap hy
              omega))
          have hr := reads_packed_dec dec (fun m hm => (hdec m hm).2) hne (by omega) fuel (by omega)
          refine ⟨_, ?_, hr.map RVal.vec⟩
          simp only [RVal.obs, obsList_eq, List.map_map]
          congr 1
          exact List.map_congr_left (fun m hm => (hdec m hm).1)
        · simp only [isPackedFixed, hp, hfx, Bool.and_self, if_true] at h hit
          by_cases hw : f.typ.wireTypeNumNonPacked = 1
          · rw [if_pos hw] at h
            obtain ⟨p, rfl, hpf⟩ := h
            have hit' : x = .pf64 p ∧ a = ⟨j, f, Option.none⟩ := by
              cases hE : (pfElems p).isEmpty
              · simp only [hE, Bool.false_eq_true, if_false, List.map_cons, List.map_nil,
                  List.mem_singleton, Prod.mk.injEq] at hit
                exact ⟨hit.2, hit.1⟩
              · simp [hE] at hit
            obtain ⟨rfl, rfl⟩ := hit'
            have e1 : itemPayload enc (⟨j, f, Option.none⟩, .pf64 p)
                = delimited ((pfElems p).flatMap (fun x => le 8 x.toNat)) := by
              simp [itemPayload, hg, hp]
            have e2 : armRead C rd fuel ⟨j, f, Option.none⟩ = fun b => (do
                let p ← read_packed_fixed C.T (MemTy.int C.T 8) b
                pure (.pf64 p)) := by
              funext b; simp [armRead, hg, hp, hb, hfx, hw]
            rw [e1] at hlen ⊢
            rw [e2]
            have hd := delimited_length ((pfElems p).flatMap (fun x => le 8 x.toNat))
            obtain ⟨p', hp', hr⟩ := reads_pf hT (by omega : 0 < 8) (pfElems p) (by omega)
            exact ⟨_, by simp only [RVal.obs, hp'], hr.map RVal.pf64⟩
          · rw [if_neg hw] at h
            obtain ⟨p, rfl, hpf⟩ := h
            have hit' : x = .pf32 p ∧ a = ⟨j, f, Option.none⟩ := by
              cases hE : (pfElems p).isEmpty
              · simp only [hE, Bool.false_eq_true, if_false, List.map_cons, List.map_nil,
                  List.mem_singleton, Prod.mk.injEq] at hit
                exact ⟨hit.2, hit.1⟩
              · simp [hE] at hit
            obtain ⟨rfl, rfl⟩ := hit'
            have e1 : itemPayload enc (⟨j, f, Option.none⟩, .pf32 p)
                = delimited ((pfElems p).flatMap (fun x => le 4 x.toNat)) := by
              simp [itemPayload, hg, hp]
            have e2 : armRead C rd fuel ⟨j, f, Option.none⟩ = fun b => (do
                let p ← read_packed_fixed C.T (MemTy.int C.T 4) b
                pure (.pf32 p)) := by
              funext b; simp [armRead, hg, hp, hb, hfx, hw]
            rw [e1] at hlen ⊢
            rw [e2]
            have hd := delimited_length ((pfElems p).flatMap (fun x => le 4 x.toNat))
            obtain ⟨p', hp', hr⟩ := reads_pf hT (by omega : 0 < 4) (pfElems p) (by omega)
            exact ⟨_, by simp only [RVal.obs, hp'], hr.map RVal.pf32⟩
    · -- map
      have hb : f.boxed = false := by
        cases hb : f.boxed
        · rfl
        · have := hok.boxed hb
          rw [(generated_map hg).2.2] at this; cases this
      simp only [hg] at h hit
      obtain ⟨k, t, l, ht, rfl, hl, _⟩ := h
      simp only [List.map_map] at hit
      obtain ⟨e, he, hh⟩ := List.mem_map.mp hit
      simp only [Function.comp, Prod.mk.injEq] at hh
      obtain ⟨rfl, rfl⟩ := hh
      obtain ⟨k1, v1⟩ := e
      have hkt := hl _ he
      have ek := wireTypeNum_lt k false
      have et := wireTypeNum_lt t false
      have e1 : itemPayload enc (⟨j, f, Option.none⟩, .map [(k1, v1)])
          = delimited (BitVec.ofNat 8 (8 + k.wireTypeNum false) :: encTyp enc k k1 ++
              (BitVec.ofNat 8 (16 + t.wireTypeNum false) :: encTyp enc t v1)) := by
        simp only [itemPayload, hg, ht, entryEnc, Spec.tag]
        rw [varint_small (by omega), varint_small (by omega)]
        simp
      have e2 : armRead C rd fuel ⟨j, f, Option.none⟩ = fun b => (do
          let kv ← read_map C.T fuel b (typDefault C k) (typDefault C t) (readTyp C rd k b)
            (readTyp C rd t b)
          pure (.map [kv])) := by
        funext b; simp [armRead, hg, hb, ht]
      rw [e1] at hlen ⊢
      rw [e2]
      have hd := delimited_length (BitVec.ofNat 8 (8 + k.wireTypeNum false) :: encTyp enc k k1 ++
              (BitVec.ofNat 8 (16 + t.wireTypeNum false) :: encTyp enc t v1))
      simp only [List.length_append, List.length_cons] at hd hlen
      obtain ⟨k', ho, hr⟩ := readTyp_ok hB hsub hkt.1 (by simp only at *; omega)
      obtain ⟨v', ho', hr'⟩ := readTyp_ok hB hsub hkt.2 (by simp only at *; omega)
      refine ⟨_, ?_, (reads_entry _ _ ek et hr hr' (typDefault C k) (typDefault C t) fuel
        (by omega) (by simp only; omega)).map (fun kv => RVal.map [kv])⟩
      simp [RVal.obs, RVal.obsEntries, ho, ho']

end

end QP.Gen
