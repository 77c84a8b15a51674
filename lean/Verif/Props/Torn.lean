import Verif.Proofs.Tears
import Verif.Props.Messages
/-!
# C81, C82: truncated frames, and logs cut short by a crash
-/

set_option linter.unusedVariables false

namespace QP
open BytesReader Spec

/-- Where the limit was before makes no difference to `read_message`. -/
theorem read_message_fin {M : Type} {T : Target} {bytes : Bytes} (p : RM M) (s f f' : Nat) :
    (read_message T bytes p ⟨s, f⟩).1 = (read_message T bytes p ⟨s, f'⟩).1 := by
  unfold read_message read_len_varint
  simp only [SM.bind_run, read_varint32_scan]
  cases scan 10 (bytes.drop s) with
  | done g =>
    simp only [scanOut32, read_len, SM.bind_run, SM.get_run, SM.lift_run]
    cases T.usizeAdd (s + g.length) (BitVec.ofNat 32 (varintVal g)).toNat with
    | ok stop =>
      simp only [SM.set_run]
      rcases p ⟨s + g.length, stop⟩ with ⟨o, r⟩
      cases o <;> rfl
    | _ => rfl
  | _ => rfl

theorem read_message_fin_ok {M : Type} {T : Target} {bytes : Bytes} {p : RM M} {s f f' : Nat} {a : M} {r : BytesReader}
    (h : read_message T bytes p ⟨s, f⟩ = (.ok a, r)) : (read_message T bytes p ⟨s, f'⟩).1 = .ok a := by
  rw [read_message_fin p s f' f, h]

/-- A truncated frame is rejected, wherever it stands and whatever the limit. -/
theorem torn_message {M : Type} {T : Target} {pf : Prop} {p : Bytes → RM M} {x : Bytes} (hx : x.length < 2 ^ 32)
    (hp : TornAll T pf p x) (pre : Bytes) (j fin : Nat) (hj : j < (delimited x).length) (hR : Roomy T (pre ++ delimited x)) :
    Rejected pf (read_message T (pre ++ (delimited x).take j) (p (pre ++ (delimited x).take j)) ⟨pre.length, fin⟩).1 := by
  have hl := hR.lt
  simp only [delimited, List.length_append] at hl hj
  by_cases hv : j < (varint x.length).length
  · rw [read_message_fin _ _ fin (pre.length + (varint x.length).length)]
    have h1 := tornAs_varint32 (T := T) (pf := pf) (n := x.length) (by omega) pre j (pre.length + (varint x.length).length) hv
      (hR.mono (by simp [delimited])) (Nat.le_refl _) (by have := length_varint_64 (n := x.length) (by omega); omega)
    unfold delimited
    rw [List.take_append_of_le_length (by omega)]
    exact Rejected.bind h1
  · rw [read_message_fin _ _ fin (pre.length + (varint x.length).length + x.length)]
    unfold delimited
    rw [List.take_append, List.take_of_length_le (by omega)]
    have h1 := reads_varint32 (T := T) (n := x.length) (by omega) pre (x.take (j - (varint x.length).length))
      (pre.length + (varint x.length).length + x.length) (by simp only [List.length_append, List.length_take]; omega) (by omega)
    have h2 := tornAs_len hx hp (pre ++ varint x.length) (j - (varint x.length).length)
      (pre.length + (varint x.length).length + x.length) (by omega) (by rw [List.append_assoc]; exact hR) (by simp) (by simp; omega)
    unfold read_message read_len_varint
    rw [SM.bind_ok h1]
    have hn : (BitVec.ofNat 32 x.length).toNat = x.length := by rw [BitVec.toNat_ofNat, Nat.mod_eq_of_lt hx]
    rw [hn]
    rw [List.append_assoc, List.length_append] at h2
    exact h2

end QP

namespace QP.Gen
open QP.Pbrs Spec BytesReader

/-! ## C81 -/

/-- **C81**, foreign input: for every schema, in every build profile: if a buffer decodes to `v`, then each
of its prefixes decodes to the same `v`, or is rejected; a truncated buffer is never mistaken for another
message. (It may decode to `v`: unknown fields at the end are skipped without looking, `C81_unknown_refuted`.) -/
theorem C81_never_other (C : Ctx) (idx : MessageIndex) (fuel : Nat) (b : Bytes) (v : RVal)
    (h : deserialize_from_slice C.T (fromReader C fuel idx) b = .ok v) (n : Nat) :
    deserialize_from_slice C.T (fromReader C fuel idx) (b.take n) = .ok v ∨
      Rejected (HasPackedFixed C) (deserialize_from_slice C.T (fromReader C fuel idx) (b.take n)) := by
  unfold deserialize_from_slice from_bytes at *
  rcases hr : read_message C.T b (fromReader C fuel idx b) ⟨0, b.length⟩ with ⟨o, r⟩
  rw [hr] at h
  simp only at h
  subst h
  rw [read_message_fin _ 0 (b.take n).length b.length]
  rcases Cut.read_len_varint (T := C.T) (cut_fromReader fuel idx) b n _ _ _ hr with h1 | h1
  · left; exact congrArg Prod.fst h1
  · right; exact h1

/-- **C81.** For every well-formed schema and every value of one of its messages, in every build profile:
what `serialize_into_vec` writes is decoded by `deserialize_from_slice`, and none of its proper prefixes is:
they all give an error, or, only if some message of the schema has a packed field of fixed-size numbers, a
panic. -/
theorem C81_torn_frame (C : Ctx) (hT : C.T.bigEndian = false) (hS : SchemaOk C) (hD : IsDefault C)
    (n : Nat) (idx : MessageIndex) (v : RVal) (hv : WellTyped C Plain n idx v)
    (hsz : (writeImpl C n idx).get_size v < 2 ^ 32) (hR : C.T.usizeBits = 64) :
    ∃ bytes, serialize_into_vec (writeImpl C n idx) v = .ok bytes ∧
      ∀ fuel, bytes.length ≤ fuel →
        (∃ v', deserialize_from_slice C.T (fromReader C fuel idx) bytes = .ok v' ∧ v'.obs = v.obs) ∧
        ∀ j, j < bytes.length →
          Rejected (HasPackedFixed C) (deserialize_from_slice C.T (fromReader C fuel idx) (bytes.take j)) := by
  have hx := exactWrite C hT hS n idx v hv (by omega)
  have hl : (encMsg C n idx v).length < 2 ^ 32 := by rw [← hx.2.1]; exact hsz
  have hd : (delimited (encMsg C n idx v)).length ≤ 10 + 2 ^ 32 := by
    have := length_varint_64 (n := (encMsg C n idx v).length) (by omega)
    simp only [delimited, List.length_append]; omega
  obtain ⟨bytes, h1, h2⟩ := C33_roundtrip C hT hS hD n idx v hv hsz (by
    rw [hR, hx.2.1, sizeof_len_eq (by omega)]; omega)
  refine ⟨bytes, h1, fun fuel hf => ⟨h2 fuel hf, ?_⟩⟩
  have hb : bytes = delimited (encMsg C n idx v) := by
    obtain ⟨b', h3, h4, _⟩ := C27_vec_slice_agree _ _ _ hx
    rw [h1] at h3; cases h3; exact h4
  subst hb
  intro j hj
  have hv' := WellTyped.imp (Q' := Restorable C) (fun f v => Plain.restorable) n idx v hv
  have hdl := delimited_length (encMsg C n idx v)
  have ht := torn_message hl (fromReader_torn hT hS hD n idx v hv' hl fuel (by omega)) [] j
    ((delimited (encMsg C n idx v)).take j).length hj (by unfold Roomy; rw [hR]; simp only [List.nil_append]; omega)
  simp only [List.nil_append, List.length_nil] at ht
  exact ht

/-- The example schema has a packed field of fixed-size numbers, the panic of **C81** is real: a value with
one such number, its frame, and the first three bytes of the frame, on which decoding panics in every
profile. -/
theorem C81_err_refuted (T : Target) (hT : T = Target.debug64 ∨ T = Target.release64) :
    ∃ (v : RVal) (b : Bytes), WellTyped (Example.ctx T) Plain 1 [0] v ∧
      serialize_into_vec (writeImpl (Example.ctx T) 1 [0]) v = .ok b ∧
      deserialize_from_slice T (fromReader (Example.ctx T) 20 [0]) (b.take 3) = .panic := by
  refine ⟨.struct [.w32 0, .bytes [], .vec [], .pf32 (.borrowed [1#8, 2#8, 3#8, 4#8]), .vec [], .map [], .none, .w32 0,
    .w32 0, .none], [6#8, 0x22#8, 4#8, 1#8, 2#8, 3#8, 4#8], ?_, ?_, ?_⟩
  · refine Example.wellTyped_of ?_ ?_ ?_ ?_ ?_ ?_ ?_ ?_ ?_ ?_
    · exact ⟨⟨_, rfl⟩, fun _ => ⟨rfl, (fun h => by cases h), (fun h => by cases h)⟩⟩
    · exact ⟨⟨_, rfl, Example.utf8_nil⟩, fun _ => ⟨rfl, (fun h => by cases h), (fun h => by cases h)⟩⟩
    · exact ⟨[], rfl, by simp⟩
    · exact ⟨_, rfl, by intro b h; cases h; exact ⟨1, rfl⟩⟩
    · exact ⟨[], rfl, by simp⟩
    · exact ⟨_, _, [], rfl, rfl, by simp, by simp⟩
    · exact Or.inl rfl
    · exact ⟨⟨_, rfl⟩, fun _ => ⟨rfl, (fun _ h => by cases h), (fun h => by cases h)⟩⟩
    · exact ⟨⟨_, rfl, (by decide : (0 : BitVec 32) ∈ [0#32, 5#32])⟩, fun _ => ⟨rfl, (fun h => by cases h), (fun h => by cases h)⟩⟩
    · exact Or.inl rfl
  · rcases hT with rfl | rfl <;> decide +kernel
  · rcases hT with rfl | rfl <;> rfl

/-- The hypotheses of **C81** are met by the example schema and a `Node` with all kinds of fields. -/
example : ∃ bytes, serialize_into_vec (writeImpl (Example.ctx Target.release64) 2 [0]) Example.value = .ok bytes ∧
    ∀ fuel, bytes.length ≤ fuel →
      (∃ v', deserialize_from_slice Target.release64 (fromReader (Example.ctx Target.release64) fuel [0]) bytes = .ok v' ∧
        v'.obs = Example.value.obs) ∧
      ∀ j, j < bytes.length → Rejected (HasPackedFixed (Example.ctx Target.release64))
        (deserialize_from_slice Target.release64 (fromReader (Example.ctx Target.release64) fuel [0]) (bytes.take j)) :=
  C81_torn_frame (Example.ctx Target.release64) rfl (Example.schemaOk _) (Example.isDefault _) 2 [0] Example.value
    (Example.value_typed _ 0) (by decide +kernel) rfl

/-- A frame whose last record is an unknown field may be truncated inside that record without notice: the
frame declares six bytes, two are there. -/
theorem C81_unknown_refuted (T : Target) (hT : T = Target.debug64 ∨ T = Target.release64) :
    let b : Bytes := [6#8, 0x9d#8, 6#8, 1#8, 2#8, 3#8, 4#8]
    deserialize_from_slice T (fromReader (Example.ctx T) 20 [0]) b = .ok Example.nodeDefault ∧
    deserialize_from_slice T (fromReader (Example.ctx T) 20 [0]) (b.take 3) = .ok Example.nodeDefault := by
  rcases hT with rfl | rfl <;> exact ⟨rfl, rfl⟩

/-! ## C82 -/

/-- The frames of some values, one after the other. -/
def frames (C : Ctx) (n : Nat) (idx : MessageIndex) (vs : List RVal) : Bytes :=
  vs.flatMap fun v => delimited (encMsg C n idx v)

/-- A prefix of a concatenation: some whole pieces, then possibly a proper part of the next one. -/
theorem prefix_flatMap {α β : Type} {e : α → List β} : ∀ (xs : List α) (s : List β), s <+: xs.flatMap e →
    ∃ k, k ≤ xs.length ∧ (s = (xs.take k).flatMap e ∨
      ∃ x j, xs[k]? = Option.some x ∧ 0 < j ∧ j < (e x).length ∧ s = (xs.take k).flatMap e ++ (e x).take j)
  | [], s, h => ⟨0, Nat.le_refl _, Or.inl (by simpa using h)⟩
  | x :: xs, s, h => by
    rw [List.flatMap_cons] at h
    rcases Nat.lt_or_ge s.length (e x).length with hl | hl
    · have hs : s <+: e x := List.prefix_of_prefix_length_le h (List.prefix_append _ _) (by omega)
      by_cases h0 : s.length = 0
      · exact ⟨0, by simp, Or.inl (by simp [List.eq_nil_of_length_eq_zero h0])⟩
      · exact ⟨0, by simp, Or.inr ⟨x, s.length, rfl, by omega, hl, by simpa using (List.prefix_iff_eq_take.mp hs)⟩⟩
    · have hs : e x <+: s := List.prefix_of_prefix_length_le (List.prefix_append _ _) h hl
      obtain ⟨t, rfl⟩ := hs
      have ht : t <+: xs.flatMap e := (List.prefix_append_right_inj _).mp h
      obtain ⟨k, hk, h2⟩ := prefix_flatMap xs t ht
      refine ⟨k + 1, by simp only [List.length_cons]; omega, ?_⟩
      rcases h2 with rfl | ⟨y, j, h3, h4, h5, rfl⟩
      · exact Or.inl (by simp)
      · exact Or.inr ⟨y, j, by simpa using h3, h4, h5, by simp⟩

theorem yields_frames {M N : Type} {T : Target} {fr : Bytes → RM M} {e : N → Bytes} {dec : N → M} : ∀ (xs : List N),
    (∀ x ∈ xs, ReadsAs T (fun b => read_message T b (fr b)) (e x) (dec x)) → ∀ (pre suf : Bytes) (fin : Nat),
    (pre ++ (xs.flatMap e ++ suf)).length < 2 ^ T.usizeBits → pre.length + (xs.flatMap e).length ≤ fin →
    Yields T fr (pre ++ (xs.flatMap e ++ suf)) ⟨pre.length, fin⟩ (xs.map dec) ⟨pre.length + (xs.flatMap e).length, fin⟩
  | [], _, pre, suf, fin, _, _ => by simp [Yields]
  | x :: xs, h, pre, suf, fin, hl, hf => by
    simp only [List.flatMap_cons, List.length_append, List.append_assoc] at hl hf ⊢
    have h1 := h x (by simp) pre (xs.flatMap e ++ suf) fin (by simp only [List.length_append]; omega) (by omega)
    have h2 := yields_frames xs (fun y hy => h y (by simp [hy])) (pre ++ e x) suf fin
      (by simp only [List.length_append]; omega) (by simp only [List.length_append]; omega)
    refine ⟨_, h1, ?_⟩
    simpa [Nat.add_assoc] using h2

/-- **C82.** A program writes messages, one frame after the other, to a sink that may accept bytes in any
pieces and fail at any point (a crash included: whatever has been accepted is what is found later). Reading
what the sink has got with `read_message`, again and again, gives back messages `1..k`, exactly those whose
frames are complete; then either the end is reached, or one further frame has been begun, and `read_message`
rejects it (an error; a panic only if the schema has packed fields of fixed-size numbers). If the writing
succeeded, `k` is all of them. -/
theorem C82_log_recovery (C : Ctx) (hT : C.T.bigEndian = false) (hS : SchemaOk C) (hD : IsDefault C)
    (n : Nat) (idx : MessageIndex) (vs : List RVal) (hv : ∀ v ∈ vs, WellTyped C Plain n idx v)
    (hsz : ∀ v ∈ vs, (writeImpl C n idx).get_size v < 2 ^ 32) (hR : Roomy C.T (frames C n idx vs))
    (d : Device) (hd : d.received = []) (fuel : Nat) (hf : ∀ v ∈ vs, (writeImpl C n idx).get_size v < fuel) :
    let res := writeEach (fun v => write_message (writeImpl C n idx) v) vs d
    let s := res.2.received
    ∃ (k : Nat) (ms : List RVal) (r : BytesReader), k ≤ vs.length ∧
      Yields C.T (fromReader C fuel idx) s (from_bytes s) ms r ∧
      ms.map RVal.obs = (vs.take k).map RVal.obs ∧
      ((s = frames C n idx (vs.take k) ∧ r.is_eof = true) ∨
       (frames C n idx (vs.take k) <+: s ∧ (frames C n idx (vs.take k)).length < s.length ∧
        s.length < (frames C n idx (vs.take (k + 1))).length ∧ r.is_eof = false ∧
        Rejected (HasPackedFixed C) (read_message C.T s (fromReader C fuel idx s) r).1)) ∧
      (res.1 = .ok () → k = vs.length) := by
  have hx : ∀ v ∈ vs, ExactWrite (writeImpl C n idx) v (encMsg C n idx v) := fun v h =>
    exactWrite C hT hS n idx v (hv v h) (by have := hsz v h; omega)
  have hl : ∀ v ∈ vs, (encMsg C n idx v).length < 2 ^ 32 := fun v h => by
    have h1 := hsz v h; rw [(hx v h).2.1] at h1; exact h1
  have hlf : ∀ v ∈ vs, (encMsg C n idx v).length < fuel := fun v h => by
    have h1 := hf v h; rw [(hx v h).2.1] at h1; exact h1
  have hv' : ∀ v ∈ vs, WellTyped C (Restorable C) n idx v := fun v h =>
    WellTyped.imp (Q' := Restorable C) (fun f v => Plain.restorable) n idx v (hv v h)
  have hem : Emits (fun W _ => writeEach (fun x => write_message (writeImpl C n idx) x) vs) (frames C n idx vs) := by
    have key : ∀ l : List RVal, (∀ x ∈ l, x ∈ vs) →
        Emits (fun W _ => writeEach (fun x => write_message (writeImpl C n idx) x) l) (frames C n idx l) := by
      intro l
      induction l with
      | nil => intro _; exact Emits.nil
      | cons x xs ih =>
        intro h
        exact Emits.bind (emits_message (hx x (h x (by simp)))) (ih (fun y hy => h y (by simp [hy])))
    exact key vs (fun _ h => h)
  intro res s
  obtain ⟨hp, hfull⟩ : s <+: frames C n idx vs ∧ (res.1 = .ok () → s = frames C n idx vs) := by
    rcases C24_backend_prefix _ _ hem d with ⟨h1, h2⟩ | ⟨h1, pre, h2, h3⟩
    · rw [hd, List.nil_append] at h2
      exact ⟨by show res.2.received <+: _; rw [show res.2.received = _ from h2]; exact List.prefix_refl _, fun _ => h2⟩
    · rw [hd, List.nil_append] at h3
      refine ⟨by show res.2.received <+: _; rw [show res.2.received = _ from h3]; exact h2, fun h => ?_⟩
      rcases h1 with h1 | h1
      · have h1 : res.1 = _ := h1
        rw [h] at h1; cases h1
      · have h1 : res.1 = _ := h1
        rw [h] at h1; cases h1
  clear_value s
  obtain ⟨dec, hdec⟩ := choose_on RVal.none (l := vs) (P := fun v v' => v'.obs = v.obs ∧
      ReadsAs C.T (fun b => read_message C.T b (fromReader C fuel idx b)) (delimited (encMsg C n idx v)) v')
    (fun v h => by
      obtain ⟨v', ho, hr⟩ := fromReader_ok hT hS hD n idx v (hv' v h) (hl v h) fuel (hlf v h)
      exact ⟨v', ho, readsAs_len_varint (hl v h) hr.weak⟩)
  have hpos : ∀ v : RVal, 0 < (delimited (encMsg C n idx v)).length := fun v => by
    have := delimited_length (encMsg C n idx v); omega
  have hmono : ∀ k, (frames C n idx (vs.take k)).length ≤ (frames C n idx vs).length := fun k => by
    have : frames C n idx vs = frames C n idx (vs.take k) ++ frames C n idx (vs.drop k) := by
      unfold frames; rw [← List.flatMap_append, List.take_append_drop]
    rw [this, List.length_append]; omega
  have hlt := hR.lt
  obtain ⟨k, hk, h⟩ := prefix_flatMap vs s hp
  have hobs : ((vs.take k).map dec).map RVal.obs = (vs.take k).map RVal.obs := by
    rw [List.map_map]
    exact List.map_congr_left (fun v h => (hdec v (List.mem_of_mem_take h)).1)
  have hy := yields_frames (T := C.T) (fr := fromReader C fuel idx) (e := fun v => delimited (encMsg C n idx v)) (dec := dec)
    (vs.take k) (fun v h => (hdec v (List.mem_of_mem_take h)).2) []
  have hk1 := hmono k
  rcases h with h | ⟨v, j, h1, h2, h3, h⟩
  · refine ⟨k, (vs.take k).map dec, ⟨s.length, s.length⟩, hk, ?_, hobs, Or.inl ⟨h, by simp [is_eof]⟩, ?_⟩
    · have := hy [] s.length (by rw [List.append_nil, List.nil_append, ← h, h]; unfold frames at *; omega) (by rw [h]; simp)
      simp only [List.append_nil, List.nil_append, List.length_nil, Nat.zero_add] at this
      rw [← h] at this
      exact this
    · intro hok
      have h4 := hfull hok
      by_cases hlt2 : k < vs.length
      · exfalso
        have h5 : frames C n idx vs = frames C n idx (vs.take k) ++ frames C n idx (vs.drop k) := by
          unfold frames; rw [← List.flatMap_append, List.take_append_drop]
        have h6 : frames C n idx (vs.drop k) = [] := by
          have : s ++ [] = s ++ frames C n idx (vs.drop k) := by
            rw [List.append_nil]; conv => lhs; rw [h4, h5]
            rw [h]; rfl
          exact (List.append_cancel_left this).symm
        rw [List.drop_eq_getElem_cons hlt2] at h6
        have := congrArg List.length h6
        simp only [frames, List.flatMap_cons, List.length_append, List.length_nil] at this
        have := hpos vs[k]
        omega
      · omega
  · have hv1 : v ∈ vs := List.mem_of_getElem? h1
    have hkl : k < vs.length := (List.getElem?_eq_some_iff.mp h1).1
    have hsucc : frames C n idx (vs.take (k + 1)) = frames C n idx (vs.take k) ++ delimited (encMsg C n idx v) := by
      unfold frames
      rw [List.take_add_one, h1, List.flatMap_append]
      simp
    have hsl : s.length = (frames C n idx (vs.take k)).length + j := by
      rw [h]; simp only [List.length_append, List.length_take, frames]; omega
    have hk2 := hmono (k + 1)
    refine ⟨k, (vs.take k).map dec, ⟨(frames C n idx (vs.take k)).length, s.length⟩, hk, ?_, hobs, Or.inr ⟨?_, ?_, ?_, ?_, ?_⟩, ?_⟩
    · have := hy ((delimited (encMsg C n idx v)).take j) s.length (by
        rw [List.nil_append, ← h, hsl]; rw [hsucc, List.length_append] at hk2; omega) (by
        rw [hsl]; simp only [List.length_nil, frames]; omega)
      simp only [List.nil_append, List.length_nil, Nat.zero_add] at this
      rw [← h] at this
      exact this
    · rw [h]; exact List.prefix_append _ _
    · omega
    · rw [hsucc, List.length_append]; omega
    · simp only [is_eof, beq_eq_false_iff_ne]; omega
    · have := torn_message (hl v hv1) (fromReader_torn hT hS hD n idx v (hv' v hv1) (hl v hv1) fuel (hlf v hv1))
        (frames C n idx (vs.take k)) j s.length h3 (hR.mono (by rw [hsucc] at hk2; exact hk2))
      rw [show frames C n idx (vs.take k) ++ (delimited (encMsg C n idx v)).take j = s from h.symm] at this
      exact this
    · intro hok
      exfalso
      have h9 := congrArg List.length (hfull hok)
      rw [hsucc, List.length_append] at hk2
      omega

/-- A sink that takes three bytes per call and breaks at the fifteenth call. -/
def crashing : Device := ⟨fun i => if i < 14 then .accept 3 else .fail, 100, 0, []⟩

/-- The hypotheses of **C82** are met by two messages of the example schema and this sink; writing fails. -/
example : ∃ (k : Nat) (ms : List RVal) (r : BytesReader), k ≤ 2 ∧
    let C := Example.ctx Target.debug64
    let vs := [Example.leaf, Example.value]
    let res := writeEach (fun v => write_message (writeImpl C 2 [0]) v) vs crashing
    let s := res.2.received
    res.1 = .err .Io ∧ 0 < s.length ∧
    Yields C.T (fromReader C 1000 [0]) s (from_bytes s) ms r ∧ ms.map RVal.obs = (vs.take k).map RVal.obs := by
  have h := C82_log_recovery (Example.ctx Target.debug64) rfl (Example.schemaOk _) (Example.isDefault _) 2 [0]
    [Example.leaf, Example.value]
    (by
      intro v hv
      simp only [List.mem_cons, List.not_mem_nil, or_false] at hv
      rcases hv with rfl | rfl
      · exact Example.leaf_typed _ 1
      · exact Example.value_typed _ 0)
    (by decide +kernel) (by unfold Roomy; decide +kernel) crashing rfl 1000 (by decide +kernel)
  obtain ⟨k, ms, r, h1, h2, h3, _⟩ := h
  exact ⟨k, ms, r, h1, by decide +kernel, by decide +kernel, h2, h3⟩

end QP.Gen
