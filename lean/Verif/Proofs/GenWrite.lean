import Verif.Spec.Message
import Verif.Props.Framing
import Verif.Props.PackedFixed
import Verif.Props.Delimited
/-! Generated `get_size` and `write_message` against the wire form. -/

set_option linter.unusedVariables false

namespace QP.Gen
open QP.Pbrs Spec

/-- If `size` fits a `usize`, it is the length of `enc`, and the program emits `enc`. -/
def WriteOk (size : Nat) (p : WProg) (enc : Bytes) : Prop :=
  size < 2 ^ 64 → size = enc.length ∧ Emits p enc

namespace WriteOk

theorem of {size : Nat} {p : WProg} {enc : Bytes} (h : size = enc.length) (he : Emits p enc) :
    WriteOk size p enc := fun _ => ⟨h, he⟩

theorem nil : WriteOk 0 (fun W _ => (pure () : SM W Unit)) [] := of rfl Emits.nil

theorem bind {a b : Nat} {p q : WProg} {x y : Bytes} (hp : WriteOk a p x) (hq : WriteOk b q y) :
    WriteOk (a + b) (fun W _ => (do p W; q W)) (x ++ y) := by
  intro h
  obtain ⟨h1, e1⟩ := hp (by omega)
  obtain ⟨h2, e2⟩ := hq (by omega)
  exact ⟨by rw [List.length_append, h1, h2], Emits.bind e1 e2⟩

theorem congr {a a' : Nat} {p p' : WProg} {x x' : Bytes} (h : WriteOk a p x) (ha : a' = a)
    (hp : ∀ (W : Type) [WriterBackend W], p' W = p W) (hx : x' = x) : WriteOk a' p' x' := by
  subst ha; subst hx
  intro hlt
  obtain ⟨h1, e1⟩ := h hlt
  exact ⟨h1, e1.congr hp rfl⟩

theorem each {M : Type} {size : M → Nat} {write : M → WProg} {enc : M → Bytes} :
    ∀ (l : List M), (∀ m ∈ l, WriteOk (size m) (write m) (enc m)) →
    WriteOk (l.map size).sum (fun W _ => writeEach (fun m => write m W) l) (l.flatMap enc)
  | [], _ => nil
  | m :: ms, h => by
    simp only [List.flatMap_cons, writeEach, List.map_cons, List.sum_cons]
    exact bind (h m (by simp)) (each ms (fun x hx => h x (by simp [hx])))

/-- A length prefix. -/
theorem len {s : Nat} {p : WProg} {x : Bytes} (h : WriteOk s p x) :
    WriteOk (sizeof_len s)
      (fun W _ => (do write_varint (BitVec.ofNat 64 s); p W)) (delimited x) := by
  intro hlt
  have hs : s < 2 ^ 64 := by unfold sizeof_len at hlt; omega
  obtain ⟨rfl, e⟩ := h hs
  exact ⟨sizeof_len_eq hs, Emits.bind (emits_varint_ofNat hs) e⟩

end WriteOk

/-! ### tags -/

theorem sizeofVarint_eq (v : BitVec 32) : sizeofVarint v = (varint v.toNat).length := by
  have hp := length_varint_pos v.toNat
  have hv := v.isLt
  have h1 := length_varint_le v.toNat 0
  have h2 := length_varint_le v.toNat 1
  have h3 := length_varint_le v.toNat 2
  have h4 := length_varint_le v.toNat 3
  have h5 := length_varint_le v.toNat 4
  unfold sizeofVarint
  simp only [BitVec.le_def, BitVec.toNat_ofNat]
  repeat' split
  all_goals omega

theorem wireTypeNum_lt (t : FieldType) (p : Bool) : t.wireTypeNum p < 8 := by
  unfold FieldType.wireTypeNum
  split
  · omega
  · cases t <;> simp [FieldType.wireTypeNumNonPacked]

/-- The generator's tag is `number * 8 + wire_type`, for field numbers below `2^29`. -/
theorem tag_toNat (n : BitVec 32) (hn : n.toNat < 2 ^ 29) (t : FieldType) (p : Bool) :
    (Pbrs.tag n t p).toNat = Spec.tag n.toNat (t.wireTypeNum p) := by
  have hw := wireTypeNum_lt t p
  unfold Pbrs.tag Spec.tag
  have he : (BitVec.ofNat 32 (t.wireTypeNum p)).toNat = t.wireTypeNum p := by
    rw [BitVec.toNat_ofNat, Nat.mod_eq_of_lt (by omega)]
  rw [BitVec.or_comm, toNat_or_shift (BitVec.ofNat 32 (t.wireTypeNum p)) n 3 32
    (by rw [he]; omega) (by omega) (Nat.le_refl _), he]
  omega

theorem number_toNat {i : Int} (h : 0 < i ∧ i < 2 ^ 29) : (BitVec.ofInt 32 i).toNat = i.toNat := by
  rw [BitVec.toNat_ofInt]; omega

theorem fieldTag_eq {f : Field} (h : 0 < f.number ∧ f.number < 2 ^ 29) :
    f.tag.toNat = fieldTag f := by
  unfold Field.tag fieldTag
  have hn := number_toNat h
  rw [tag_toNat _ (by omega), hn]

theorem tag_ok {f : Field} (h : 0 < f.number ∧ f.number < 2 ^ 29) :
    WriteOk (sizeofVarint f.tag) (fun W _ => (write_tag f.tag : SM W Unit)) (varint (fieldTag f)) :=
  WriteOk.of (by rw [sizeofVarint_eq, fieldTag_eq h]) (by rw [← fieldTag_eq h]; exact emits_tag _)

/-! ### one value -/

theorem sint32Wire_eq (x : BitVec 32) : ((zigzagExpr32 x).signExtend 64).toNat = sint32Wire x := by
  have h := zigzagExpr32_toNat x
  have hl := (zigzagExpr32 x).isLt
  rw [signExtend_toNat, twos64, BitVec.toInt_eq_toNat_cond, h, sint32Wire]
  split <;> split <;> omega

section
variable {C : Ctx} {sub : MessageIndex → RVal → Prop} {wr : MessageIndex → MessageWrite RVal}
  {enc : MessageIndex → RVal → Bytes}

theorem writeTyp_ok
    (hsub : ∀ m v, sub m v → WriteOk ((wr m).get_size v) ((wr m).write_message v) (enc m v))
    {t : FieldType} {v : RVal} (h : HasType C sub t v) :
    WriteOk (sizeTyp wr t v) (fun W _ => writeTyp wr t v) (encTyp enc t v) := by
  have hbytes : ∀ b : Bytes, WriteOk (sizeof_len b.length) (fun W _ => (write_bytes b : SM W Unit))
      (delimited b) := fun b => WriteOk.len (WriteOk.of rfl (Emits.all b))
  cases t <;> simp only [HasType] at h
  case int32 => obtain ⟨x, rfl⟩ := h; exact WriteOk.of (by simp only [sizeTyp, encTyp, sizeof_varint_eq, signExtend_toNat]) (emits_int32 x)
  case uint32 => obtain ⟨x, rfl⟩ := h; exact WriteOk.of (by simp only [sizeTyp, encTyp, sizeof_varint_eq, setWidth_toNat]) (emits_uint32 x)
  case sint32 =>
    obtain ⟨x, rfl⟩ := h
    exact WriteOk.of (by simp only [sizeTyp, encTyp, sizeof_sint32, sizeof_varint_eq, sint32Wire_eq])
      ((emits_sint32 x).congr (fun _ _ => rfl) (by simp only [encTyp, sint32Wire_eq]))
  case int64 =>
    obtain ⟨x, rfl⟩ := h
    exact WriteOk.of (by simp only [sizeTyp, encTyp, sizeof_varint_eq, twos64_toInt])
      ((emits_varint x).congr (fun _ _ => rfl) (by simp only [encTyp, twos64_toInt]))
  case uint64 => obtain ⟨x, rfl⟩ := h; exact WriteOk.of (by simp only [sizeTyp, encTyp, sizeof_varint_eq]) (emits_varint x)
  case sint64 =>
    obtain ⟨x, rfl⟩ := h
    exact WriteOk.of (by simp only [sizeTyp, encTyp, sizeof_sint64, sizeof_varint_eq, zigzagExpr64_toNat])
      (emits_sint64 x)
  case bool =>
    obtain ⟨x, rfl⟩ := h
    cases x
    · exact WriteOk.of (by simp [sizeTyp, encTyp, sizeof_varint_eq])
        ((Emits.u8 0).congr (fun _ _ => rfl) (by simp [encTyp, varint]))
    · exact WriteOk.of (by simp [sizeTyp, encTyp, sizeof_varint_eq])
        ((Emits.u8 1).congr (fun _ _ => rfl) (by simp [encTyp, varint]))
  case enum e =>
    obtain ⟨x, rfl, _⟩ := h
    exact WriteOk.of (by simp only [sizeTyp, encTyp, sizeof_varint_eq, signExtend_toNat]) (emits_int32 x)
  case fixed64 => obtain ⟨x, rfl⟩ := h; exact WriteOk.of (by simp only [sizeTyp, encTyp, length_le]) (Emits.op (.u64 x))
  case sfixed64 => obtain ⟨x, rfl⟩ := h; exact WriteOk.of (by simp only [sizeTyp, encTyp, length_le]) (Emits.op (.i64 x))
  case double => obtain ⟨x, rfl⟩ := h; exact WriteOk.of (by simp only [sizeTyp, encTyp, length_le]) (Emits.op (.f64 x))
  case fixed32 => obtain ⟨x, rfl⟩ := h; exact WriteOk.of (by simp only [sizeTyp, encTyp, length_le]) (Emits.op (.u32 x))
  case sfixed32 => obtain ⟨x, rfl⟩ := h; exact WriteOk.of (by simp only [sizeTyp, encTyp, length_le]) (Emits.op (.i32 x))
  case float => obtain ⟨x, rfl⟩ := h; exact WriteOk.of (by simp only [sizeTyp, encTyp, length_le]) (Emits.op (.f32 x))
  case stringCow => obtain ⟨b, rfl, _⟩ := h; exact hbytes b
  case string_ => obtain ⟨b, rfl, _⟩ := h; exact hbytes b
  case bytesCow => obtain ⟨b, rfl⟩ := h; exact hbytes b
  case bytes_ => obtain ⟨b, rfl⟩ := h; exact hbytes b
  case message m =>
    refine (WriteOk.len (hsub m v h)).congr ?_ (fun W _ => ?_) ?_
    · cases v <;> rfl
    · cases v <;> rfl
    · cases v <;> rfl

/-- Sizes of fixed-size values do not depend on the value. -/
theorem sizeTyp_fixed {t : FieldType} {v : RVal} :
    (t.wireTypeNumNonPacked = 1 → sizeTyp wr t v = 8) ∧
    (t.wireTypeNumNonPacked = 5 → sizeTyp wr t v = 4) := by
  cases t <;> simp [FieldType.wireTypeNumNonPacked, sizeTyp]

end

/-! ### `PackedFixed` -/

theorem pfElems_denotes {T : Target} (hT : T.bigEndian = false) {k : Nat} (hk : 0 < k)
    (p : PackedFixed (BitVec (8 * k))) (h : PfOk p) : p.Denotes (MemTy.int T k) (pfElems p) := by
  have hst : (MemTy.int T k).store = fun x => le k x.toNat := by
    funext x; simp [MemTy.int, hT, memLE_eq]
  cases p with
  | noDataYet => rfl
  | owned v => rfl
  | borrowed b =>
    obtain ⟨n, hn⟩ := h b rfl
    show b = _
    rw [hst]
    have hdiv : b.length / k = n := by rw [hn]; exact Nat.mul_div_cancel_left n hk
    simp only [pfElems, hdiv]
    clear h hdiv
    induction n generalizing b with
    | zero =>
      have : b = [] := List.eq_nil_of_length_eq_zero (by simpa using hn)
      subst this; rfl
    | succ n ih =>
      have hlk : (b.take k).length = k := by
        rw [List.length_take, hn, Nat.mul_add]; omega
      have hd : (b.drop k).length = k * n := by
        rw [List.length_drop, hn, Nat.mul_add]; omega
      have h1 := ih (b.drop k) hd
      rw [List.range_succ_eq_map, List.map_cons, List.flatMap_cons, List.map_map]
      have h2 : le k (BitVec.ofNat (8 * k) (leVal ((b.drop (0 * k)).take k))).toNat = b.take k := by
        rw [Nat.zero_mul, List.drop_zero, BitVec.toNat_ofNat, Nat.mod_eq_of_lt]
        · conv => lhs; rw [← hlk]
          rw [hlk]
          have := le_leVal (b.take k)
          rwa [hlk] at this
        · have := leVal_lt (b.take k)
          rw [hlk] at this
          calc _ < 256 ^ k := this
            _ = 2 ^ (8 * k) := by rw [Nat.pow_mul]
      rw [h2]
      have h3 : ((List.range n).map ((fun i => BitVec.ofNat (8 * k) (leVal ((b.drop (i * k)).take k))) ∘ Nat.succ))
          = (List.range n).map (fun i => BitVec.ofNat (8 * k) (leVal (((b.drop k).drop (i * k)).take k))) := by
        apply List.map_congr_left
        intro i _
        simp only [Function.comp, List.drop_drop]
        rw [show i.succ * k = k + i * k by rw [Nat.succ_mul, Nat.add_comm]]
      rw [h3, ← h1, List.take_append_drop]

theorem write_pf_ok {T : Target} (hT : T.bigEndian = false) {k : Nat} (hk : 0 < k)
    (p : PackedFixed (BitVec (8 * k))) (h : PfOk p) {t : BitVec 32} {ts : Nat} {tb : Bytes}
    (ht : WriteOk ts (fun W _ => (write_tag t : SM W Unit)) tb) :
    WriteOk (if p.is_empty then 0 else ts + sizeof_len (pfLen (MemTy.int T k) p * k))
      (fun W _ => write_packed_fixed_with_tag (MemTy.int T k) t p)
      (if (pfElems p).isEmpty then [] else
        tb ++ delimited ((pfElems p).flatMap (fun x => le k x.toNat))) := by
  have hM := MemTy.int_plain T k hk
  have hd := pfElems_denotes hT hk p h
  have hst : (MemTy.int T k).store = fun x => le k x.toNat := by
    funext x; simp [MemTy.int, hT, memLE_eq]
  have he := pf_is_empty hM hd
  unfold write_packed_fixed_with_tag
  rw [he]
  cases hE : (pfElems p).isEmpty
  · simp only [Bool.false_eq_true, if_false]
    have hne : pfElems p ≠ [] := by intro h0; rw [h0] at hE; cases hE
    have hlen : pfLen (MemTy.int T k) p = (pfElems p).length := by
      unfold pfLen; rw [pf_len hM hd]
    rw [hlen]
    refine WriteOk.bind ht ?_
    intro hlt
    have hsz : (pfElems p).length * k < 2 ^ 64 := by unfold sizeof_len at hlt; omega
    have hl := store_all_length hM.toFaithful (pfElems p)
    have hk' : (MemTy.int T k).size = k := rfl
    rw [hst, hk'] at hl
    refine ⟨?_, ?_⟩
    · rw [← hl]; exact sizeof_len_eq (by rw [hl]; exact hsz)
    · have := emits_packed_fixed _ hM p _ hd hne hsz
      rwa [hst] at this
  · simp only [if_true]
    exact WriteOk.nil

/-! ### one member -/

theorem generated_singular {fr : Frequency} (h : fr.generated = .singular) :
    fr.isMap = false ∧ fr.isRepeated = false := by
  cases fr <;> simp_all [Frequency.generated, Frequency.isMap, Frequency.isRepeated]

theorem generated_array {fr : Frequency} (h : fr.generated = .arrayLike) :
    fr.isMap = false ∧ fr.isRepeated = true ∧ fr.isOptional = false := by
  cases fr <;> simp_all [Frequency.generated, Frequency.isMap, Frequency.isRepeated, Frequency.isOptional]

theorem generated_map {fr : Frequency} (h : fr.generated = .map) :
    fr.isMap = true ∧ fr.isRepeated = false ∧ fr.isOptional = false := by
  cases fr <;> simp_all [Frequency.generated, Frequency.isMap, Frequency.isRepeated, Frequency.isOptional]

theorem hasPresence_optional {f : Field} (hok : FieldOk f) (h : f.frequency.isOptional = true) :
    f.hasPresence = true := by
  have hm := hok.map
  unfold Field.hasPresence
  cases hf : f.frequency <;> rw [hf] at h hm <;>
    simp_all [Frequency.isOptional, Frequency.isMap]

section
variable {C : Ctx} {Q : Field → RVal → Prop} {sub : MessageIndex → RVal → Prop}
  {wr : MessageIndex → MessageWrite RVal} {enc : MessageIndex → RVal → Bytes}

/-- A tagged value. -/
theorem tagged_ok (hsub : ∀ m v, sub m v → WriteOk ((wr m).get_size v) ((wr m).write_message v) (enc m v))
    {f : Field} (hn : 0 < f.number ∧ f.number < 2 ^ 29) {x : RVal} (h : HasType C sub f.typ x) :
    WriteOk (sizeofVarint f.tag + sizeTyp wr f.typ x)
      (fun W _ => write_with_tag f.tag (writeTyp wr f.typ x))
      (varint (fieldTag f) ++ encTyp enc f.typ x) :=
  WriteOk.bind (tag_ok hn) (writeTyp_ok hsub h)

theorem entryTag_ok (n : Nat) (hn : n < 16) (t : FieldType) :
    WriteOk 1 (fun W _ => (write_tag (Pbrs.tag (BitVec.ofNat 32 n) t false) : SM W Unit))
      (varint (Spec.tag n (t.wireTypeNum false))) := by
  have h1 : (BitVec.ofNat 32 n).toNat = n := by
    rw [BitVec.toNat_ofNat, Nat.mod_eq_of_lt (by omega)]
  have h := tag_toNat (BitVec.ofNat 32 n) (by omega) t false
  have hw := wireTypeNum_lt t false
  rw [h1] at h
  refine WriteOk.of ?_ (by rw [← h]; exact emits_tag _)
  rw [varint_small (by unfold Spec.tag; omega)]; rfl

theorem entry_ok (hsub : ∀ m v, sub m v → WriteOk ((wr m).get_size v) ((wr m).write_message v) (enc m v))
    {k t : FieldType} {e : RVal × RVal} (hk : HasType C sub k e.1) (ht : HasType C sub t e.2) :
    WriteOk (sizeof_len (sizeEntry wr k t e))
      (fun W _ => write_map (sizeEntry wr k t e) (Pbrs.tag 1 k false) (writeTyp wr k e.1)
        (Pbrs.tag 2 t false) (writeTyp wr t e.2))
      (delimited (entryEnc enc k t e)) := by
  have h := WriteOk.bind (entryTag_ok 1 (by omega) k) (WriteOk.bind (writeTyp_ok hsub hk)
    (WriteOk.bind (entryTag_ok 2 (by omega) t) (writeTyp_ok hsub ht)))
  have h' := h.congr (a' := sizeEntry wr k t e) (x' := entryEnc enc k t e)
    (by unfold sizeEntry; omega) (fun _ _ => rfl) (by simp [entryEnc])
  exact WriteOk.len h'

theorem sum_const {α : Type} (l : List α) (f : α → Nat) (c : Nat) (h : ∀ x ∈ l, f x = c) :
    (l.map f).sum = c * l.length := by
  induction l with
  | nil => simp
  | cons a as ih =>
    simp only [List.map_cons, List.sum_cons, List.length_cons, h a (by simp),
      ih (fun x hx => h x (by simp [hx])), Nat.mul_add]
    omega

theorem writeField_ok (hT : C.T.bigEndian = false)
    (hsub : ∀ m v, sub m v → WriteOk ((wr m).get_size v) ((wr m).write_message v) (enc m v))
    {f : Field} (hok : FieldOk f) {v : RVal} (h : FieldTyped C Q sub f v) (j : Nat) :
    WriteOk (sizeField C wr f v) (fun W _ => writeField C wr f v)
      ((memberItems C j (.field f) v).flatMap (itemEnc enc)) := by
  have htag := tag_ok hok.number
  unfold FieldTyped at h
  unfold sizeField writeField memberItems
  cases hg : f.frequency.generated
  · -- singular
    simp only [hg] at h ⊢
    have hitem : ∀ x, [(({ slot := j, field := f, choice := Option.none } : Arm), x)].flatMap (itemEnc enc)
        = varint (fieldTag f) ++ encTyp enc f.typ x := by
      intro x; simp [itemEnc, itemPayload, hg]
    cases ho : f.frequency.isOptional
    · simp only [ho, Bool.false_eq_true, if_false] at h ⊢
      cases hp : f.hasPresence
      · simp only [Bool.false_eq_true, if_false]
        cases hs : scalarEq f.typ v (fieldDefault C f)
        · simp only [Bool.false_eq_true, if_false, List.map_cons, List.map_nil, hitem]
          exact tagged_ok hsub hok.number h.1
        · simp only [if_true]; exact WriteOk.nil
      · simp only [if_true, List.map_cons, List.map_nil, hitem]
        exact tagged_ok hsub hok.number h.1
    · simp only [ho, if_true, hasPresence_optional hok ho] at h ⊢
      rcases h with rfl | ⟨x, rfl, hx⟩
      · exact WriteOk.nil
      · simp only [List.map_cons, List.map_nil, hitem]
        exact tagged_ok hsub hok.number hx
  · -- repeated
    simp only [hg] at h ⊢
    cases hp : f.isPacked
    · simp only [isPackedFixed, hp, Bool.false_and, Bool.false_eq_true, if_false] at h ⊢
      obtain ⟨l, rfl, hl⟩ := h
      have key := WriteOk.each (size := fun x => sizeofVarint f.tag + sizeTyp wr f.typ x)
        (write := fun x W _ => write_with_tag f.tag (writeTyp wr f.typ x))
        (enc := fun x => varint (fieldTag f) ++ encTyp enc f.typ x) l
        (fun x hx => tagged_ok hsub hok.number (hl x hx))
      refine key.congr ?_ (fun _ _ => rfl) ?_
      · show (if f.typ.wireTypeNumNonPacked = 1 then _ else _) = _
        by_cases hw : f.typ.wireTypeNumNonPacked = 1
        · rw [if_pos hw]
          exact (sum_const l _ _ (fun x _ => by rw [sizeTyp_fixed.1 hw])).symm
        · rw [if_neg hw]
          by_cases hw : f.typ.wireTypeNumNonPacked = 5
          · rw [if_pos hw]
            exact (sum_const l _ _ (fun x _ => by rw [sizeTyp_fixed.2 hw])).symm
          · rw [if_neg hw]
      · rw [List.flatMap_map]
        simp [itemEnc, itemPayload, hg, hp]
    · cases hfx : f.typ.isFixedSize
      · simp only [isPackedFixed, hp, hfx, Bool.and_false, Bool.false_eq_true, if_false, if_true] at h ⊢
        obtain ⟨l, rfl, hl⟩ := h
        cases hE : l.isEmpty
        · simp only [Bool.false_eq_true, if_false, write_packed_with_tag, hE]
          have key := WriteOk.each (size := fun x => sizeTyp wr f.typ x)
            (write := fun x W _ => writeTyp wr f.typ x)
            (enc := fun x => encTyp enc f.typ x) l (fun x hx => writeTyp_ok hsub (hl x hx))
          refine (WriteOk.bind htag (WriteOk.len key)).congr rfl (fun _ _ => rfl) ?_
          simp [itemEnc, itemPayload, hg, hp]
        · simp only [if_true, write_packed_with_tag, hE]; exact WriteOk.nil
      · simp only [isPackedFixed, hp, hfx, Bool.and_self, if_true] at h ⊢
        by_cases hw : f.typ.wireTypeNumNonPacked = 1
        · rw [if_pos hw] at h
          obtain ⟨p, rfl, hpf⟩ := h
          refine (write_pf_ok hT (by omega) p hpf htag).congr rfl (fun _ _ => rfl) ?_
          cases hE : (pfElems p).isEmpty
          · have hE' : pfElems p ≠ [] := by intro h0; rw [h0] at hE; cases hE
            simp [itemEnc, itemPayload, hg, hp, hE']
          · have hE' : pfElems p = [] := List.isEmpty_iff.mp hE
            simp [hE']
        · rw [if_neg hw] at h
          obtain ⟨p, rfl, hpf⟩ := h
          refine (write_pf_ok hT (by omega) p hpf htag).congr rfl (fun _ _ => rfl) ?_
          cases hE : (pfElems p).isEmpty
          · have hE' : pfElems p ≠ [] := by intro h0; rw [h0] at hE; cases hE
            simp [itemEnc, itemPayload, hg, hp, hE']
          · have hE' : pfElems p = [] := List.isEmpty_iff.mp hE
            simp [hE']
  · -- map
    simp only [hg] at h ⊢
    obtain ⟨k, t, l, ht, rfl, hl, _⟩ := h
    simp only [ht]
    have key := WriteOk.each (size := fun e => sizeofVarint f.tag + sizeof_len (sizeEntry wr k t e))
      (write := fun e W _ => write_with_tag f.tag (write_map (sizeEntry wr k t e) (Pbrs.tag 1 k false)
          (writeTyp wr k e.1) (Pbrs.tag 2 t false) (writeTyp wr t e.2)))
      (enc := fun e => varint (fieldTag f) ++ delimited (entryEnc enc k t e)) l
      (fun e he => WriteOk.bind htag (entry_ok hsub (hl e he).1 (hl e he).2))
    refine key.congr rfl (fun _ _ => rfl) ?_
    rw [List.map_map, List.flatMap_map]
    simp [itemEnc, itemPayload, hg, ht, Function.comp]

theorem writeMember_ok (hT : C.T.bigEndian = false)
    (hsub : ∀ m v, sub m v → WriteOk ((wr m).get_size v) ((wr m).write_message v) (enc m v))
    {mem : Member} (hok : MemberOk mem) {v : RVal} (h : MemberTyped C Q sub mem v) (j : Nat) :
    WriteOk (sizeMember C wr mem v) (fun W _ => writeMember C wr mem v)
      ((memberItems C j mem v).flatMap (itemEnc enc)) := by
  cases mem with
  | field f => exact writeField_ok hT hsub hok h j
  | oneof fs =>
    rcases h with rfl | ⟨i, f, x, hi, rfl, hx⟩
    · exact WriteOk.nil
    · have hv : VariantOk f := hok f (List.mem_of_getElem? hi)
      refine (tagged_ok hsub hv.number hx).congr ?_ (fun _ _ => ?_) ?_
      · simp only [sizeMember, hi]
      · simp only [writeMember, hi]
      · simp [memberItems, hi, itemEnc, itemPayload]

end

/-! ### messages -/

theorem sum_zipWith {α β : Type} (f : α → β → Nat) (l : List α) (m : List β) :
    (List.zipWith f l m).sum = ((l.zip m).map (fun p => f p.1 p.2)).sum := by
  rw [List.zip, List.map_zipWith]

theorem zipIdx_flatMap {α β : Type} (g : α → Nat → List β) (l : List α) (k : Nat)
    (f : α → List β) (h : ∀ a ∈ l, ∀ j, g a j = f a) :
    (l.zipIdx k).flatMap (fun p => g p.1 p.2) = l.flatMap f := by
  induction l generalizing k with
  | nil => rfl
  | cons a as ih =>
    rw [List.zipIdx_cons, List.flatMap_cons, List.flatMap_cons, ih _ (fun x hx => h x (by simp [hx])),
      h a (by simp)]

/-- The records of a member do not depend on its position, except for the position noted in them. -/
theorem memberItems_enc (C : Ctx) (enc : MessageIndex → RVal → Bytes) (j : Nat) (mem : Member) (v : RVal) :
    (memberItems C j mem v).flatMap (itemEnc enc) = (memberItems C 0 mem v).flatMap (itemEnc enc) := by
  cases mem with
  | field f =>
    simp only [memberItems, List.flatMap_map]
    rfl
  | oneof fs =>
    simp only [memberItems]
    split
    · split
      · simp [itemEnc, itemPayload]
      · rfl
    · rfl

theorem msgItems_enc (C : Ctx) (enc : MessageIndex → RVal → Bytes) (m : Message) (slots : List RVal) :
    (msgItems C m slots).flatMap (itemEnc enc) =
      ((members C.cfg m).zip slots).flatMap (fun p => (memberItems C 0 p.1 p.2).flatMap (itemEnc enc)) := by
  unfold msgItems
  rw [List.flatMap_assoc]
  exact zipIdx_flatMap (fun (p : Member × RVal) j => (memberItems C j p.1 p.2).flatMap (itemEnc enc))
    _ 0 _ (fun a _ j => memberItems_enc C enc j a.1 a.2)

/-- Generated `get_size` and `write_message` agree with the wire form. -/
theorem writeImpl_ok {C : Ctx} (hT : C.T.bigEndian = false) (hS : SchemaOk C)
    {Q : Field → RVal → Prop} (n : Nat) :
    ∀ idx v, WellTyped C Q n idx v →
      WriteOk ((writeImpl C n idx).get_size v) ((writeImpl C n idx).write_message v) (encMsg C n idx v) := by
  induction n with
  | zero => intro idx v h; exact h.elim
  | succ n ih =>
    rintro idx v ⟨m, slots, hm, rfl, hlen, hmem⟩
    have hok := hS idx m hm
    have key := WriteOk.each
      (size := fun (p : Member × RVal) => sizeMember C (writeImpl C n) p.1 p.2)
      (write := fun p W _ => writeMember C (writeImpl C n) p.1 p.2)
      (enc := fun p => (memberItems C 0 p.1 p.2).flatMap (itemEnc (encMsg C n)))
      ((members C.cfg m).zip slots)
      (fun p hp => writeMember_ok hT ih (hok.members _ (List.of_mem_zip hp).1) (hmem p hp) 0)
    refine key.congr ?_ (fun _ _ => ?_) ?_
    · simp only [writeImpl, hm, RVal.slots, sum_zipWith]
    · simp only [writeImpl, hm, RVal.slots]
    · simp only [encMsg, hm, RVal.slots, msgItems_enc]

end QP.Gen
