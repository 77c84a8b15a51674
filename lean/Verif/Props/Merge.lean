import Verif.Proofs.Merge
import Verif.Props.Compat
import Verif.Props.Example
/-!
# C98: decoding concatenated encodings merges the messages
-/

set_option linter.unusedVariables false

namespace QP.Gen
open QP.Pbrs Spec

theorem wellTyped_notVoid {C : Ctx} {Q : Field → RVal → Prop} {n : Nat} (i : MessageIndex) (v : RVal) (h : WellTyped C Q n i v) : v.isVoid = false := by
  cases n with
  | zero => exact h.elim
  | succ n =>
    obtain ⟨m, slots, _, rfl, _⟩ := h
    rfl

theorem typed_slot {C : Ctx} {Q : Field → RVal → Prop} {subT : MessageIndex → RVal → Prop} {m : Message} {slots : List RVal}
    (hlen : slots.length = (members C.cfg m).length) (htyp : ∀ p ∈ (members C.cfg m).zip slots, MemberTyped C Q subT p.1 p.2)
    {j : Nat} {mem : Member} (hj : (members C.cfg m)[j]? = Option.some mem) : ∃ w, slots[j]? = Option.some w ∧ MemberTyped C Q subT mem w := by
  have hjl := (List.getElem?_eq_some_iff.mp hj).1
  refine ⟨slots[j]'(by omega), List.getElem?_eq_getElem _, ?_⟩
  refine htyp (mem, slots[j]'(by omega)) ?_
  refine List.mem_of_getElem? (i := j) ?_
  rw [List.getElem?_zip_eq_some]
  exact ⟨hj, List.getElem?_eq_getElem _⟩

theorem obs_slots {us vs : List RVal} (h : (RVal.struct us).obs = (RVal.struct vs).obs) {j : Nat} {u v : RVal} (hu : us[j]? = Option.some u)
    (hv : vs[j]? = Option.some v) : u.obs = v.obs := by
  simp only [RVal.obs, RVal.struct.injEq, obsList_eq] at h
  have := congrArg (fun l => l[j]?) h
  simpa [hu, hv] using this

/-- **C98**, what happens, any profile: `x` and `y` are values of a message, each with its encoding. The two encodings one after the other are
decoded as `y` on top of `x` (`overlay`): an optional field, a oneof or a packed field that is not empty in `y`, a required field, and a field
without presence that is not the default in `y`, have the value of `y`, else that of `x`; other repeated fields have the elements of both;
maps the entries of both. -/
theorem C98_overlay (C : Ctx) (hT : C.T.bigEndian = false) (hS : SchemaOk C) (hD : IsDefault C) (n : Nat) (idx : MessageIndex) (m : Message)
    (hm : C.D.getMessage idx = Option.some m) (x y : RVal) (hx : WellTyped C Plain n idx x) (hy : WellTyped C Plain n idx y)
    (hsz : (writeImpl C n idx).get_size x + (writeImpl C n idx).get_size y < 2 ^ 32)
    (hbits : (writeImpl C n idx).get_size x + (writeImpl C n idx).get_size y < 2 ^ C.T.usizeBits) :
    ∃ ex ey v, Emits ((writeImpl C n idx).write_message x) ex ∧ Emits ((writeImpl C n idx).write_message y) ey ∧
      decode C idx (ex ++ ey) = .ok v ∧ v.obs = (overlay C m x y).obs := by
  cases n with
  | zero => exact hx.elim
  | succ n =>
  have wx := exactWrite C hT hS (n + 1) idx x hx (by omega)
  have wy := exactWrite C hT hS (n + 1) idx y hy (by omega)
  have hx' := WellTyped.imp (Q' := Restorable C) (fun f v => Plain.restorable) (n + 1) idx x hx
  have hy' := WellTyped.imp (Q' := Restorable C) (fun f v => Plain.restorable) (n + 1) idx y hy
  have lx := wx.2.1
  have ly := wy.2.1
  suffices ∃ v, decode C idx (encMsg C (n + 1) idx x ++ encMsg C (n + 1) idx y) = .ok v ∧ v.obs = (overlay C m x y).obs by
    obtain ⟨v, h1, h2⟩ := this
    exact ⟨_, _, v, wx.1, wy.1, h1, h2⟩
  obtain ⟨m1, sx, hm1, rfl, hlx, htx⟩ := hx'
  obtain ⟨m2, sy, hm2, rfl, hly, hty⟩ := hy'
  rw [hm] at hm1 hm2
  cases hm1
  cases hm2
  have hex : encMsg C (n + 1) idx (.struct sx) = (msgItems C m sx).flatMap (itemEnc (encMsg C n)) := by simp [encMsg, hm, RVal.slots]
  have hey : encMsg C (n + 1) idx (.struct sy) = (msgItems C m sy).flatMap (itemEnc (encMsg C n)) := by simp [encMsg, hm, RVal.slots]
  rw [hex] at lx
  rw [hey] at ly
  have hself := msg_self hT hS hD n
  obtain ⟨ux, px, rx⟩ := items_self (enc := encMsg C n) (dec := Denotes C) hS hm htx (by omega) (fun w i hi hlw => by
    obtain ⟨v', h1, h2⟩ := hself i w hi (by omega) (by omega)
    exact ⟨v', ⟨n, h1⟩, h2⟩)
  obtain ⟨uy, py, ry⟩ := items_self (enc := encMsg C n) (dec := Denotes C) hS hm hty (by omega) (fun w i hi hlw => by
    obtain ⟨v', h1, h2⟩ := hself i w hi (by omega) (by omega)
    exact ⟨v', ⟨n, h1⟩, h2⟩)
  rw [hex, hey]
  have hdl : (C.dflt idx).slots.length = (members C.cfg m).length := by rw [hD idx m hm]; simp [RVal.slots]
  cases hu : m.isUnit with
  | true =>
    have hmem := isUnit_members (cfg := C.cfg) hu
    have hd := denotes_records hm (px.append py)
    rw [hu, if_pos rfl] at hd
    refine ⟨C.dflt idx, C63_decode_complete C hS idx _ _ (by rw [List.length_append, ← lx, ← ly]; exact hbits) hd, ?_⟩
    rw [hD idx m hm, overlay, hmem]
    rfl
  | false =>
    have hdec : ∀ (s : List RVal) (us : List Item), s.length = (members C.cfg m).length →
        ((writeImpl C (n + 1) idx).get_size (.struct s) = ((msgItems C m s).flatMap (itemEnc (encMsg C n))).length) →
        (writeImpl C (n + 1) idx).get_size (.struct s) < 2 ^ 32 → (writeImpl C (n + 1) idx).get_size (.struct s) < 2 ^ C.T.usizeBits →
        WellTyped C Plain (n + 1) idx (.struct s) →
        Parses (Record C (Denotes C) m) ((msgItems C m s).flatMap (itemEnc (encMsg C n))) (us.map Option.some) →
        (RVal.struct (slotsAfter (C.dflt idx).slots (us.map Option.some))).obs = (RVal.struct s).obs := by
      intro s us hl hlen h32 hb hw hp
      have hw' := WellTyped.imp (Q' := Restorable C) (fun f v => Plain.restorable) (n + 1) idx _ hw
      have he : encMsg C (n + 1) idx (.struct s) = (msgItems C m s).flatMap (itemEnc (encMsg C n)) := by simp [encMsg, hm, RVal.slots]
      obtain ⟨v', h1, h2⟩ := msg_self hT hS hD (n + 1) idx (.struct s) hw' (by rw [he, ← hlen]; exact h32) (by rw [he, ← hlen]; exact hb)
      have e1 := C63_decode_complete C hS idx _ v' (by rw [he, ← hlen]; exact hb) ⟨_, h1⟩
      have e2 := decode_records hS hm hu hp (by rw [← hlen]; exact hb)
      rw [he] at e1
      rw [e1] at e2
      cases e2
      exact h2
    have ox := hdec sx ux hlx lx (by omega) (by omega) hx px
    have oy := hdec sy uy hly ly (by omega) (by omega) hy py
    refine ⟨_, decode_records hS hm hu (px.append py) (by rw [List.length_append, ← lx, ← ly]; exact hbits), ?_⟩
    have hsx : (RVal.struct sx).slots = sx := rfl
    have hsy : (RVal.struct sy).slots = sy := rfl
    simp only [overlay, RVal.obs, hsx, hsy, RVal.struct.injEq, obsList_eq]
    apply List.ext_getElem?
    intro j
    cases hj : (members C.cfg m)[j]? with
    | none =>
      have hjl := List.getElem?_eq_none_iff.mp hj
      rw [List.getElem?_eq_none, List.getElem?_eq_none]
      · simp only [List.length_map, List.length_zipWith, List.length_zip]; omega
      · simp only [List.length_map, slotsAfter, List.length_mapIdx]; omega
    | some mem =>
      obtain ⟨a, ha, tya⟩ := typed_slot hlx htx hj
      obtain ⟨b, hb, tyb⟩ := typed_slot hly hty hj
      have hd := dflt_get hD hm hj
      rw [List.getElem?_map, slotsAfter_get hd, List.getElem?_map, List.getElem?_zipWith]
      have hz : (sx.zip sy)[j]? = Option.some (a, b) := by rw [List.getElem?_zip_eq_some]; exact ⟨ha, hb⟩
      simp only [hj, hz, Option.map_some, Option.some.injEq]
      have fm : ∀ us : List Item, ((us.map Option.some).filterMap id) = us := fun us => by
        rw [List.filterMap_map]; simp
      rw [List.filterMap_append, fm, fm, List.filter_append]
      have qx := reread_slot rx j
      have qy := reread_slot ry j
      rw [msgItems_slot hj ha] at qx
      rw [msgItems_slot hj hb] at qy
      have o1 := obs_slots ox (slotsAfter_get hd) ha
      have o2 := obs_slots oy (slotsAfter_get hd) hb
      rw [fm] at o1 o2
      exact member_overlay (Q := Restorable C) (subT := WellTyped C (Restorable C) n) wellTyped_notVoid ((hS idx m hm).members mem (List.mem_of_getElem? hj)) tya tyb qx qy o1 o2

/-- **C98**, any profile: if `x` and `y` do not both have a message in the same field, or both elements in the same packed field (`Apart`), the
two encodings one after the other are decoded as the merge of the protobuf encoding guide. What is missing: `C98_refuted_message`,
`C98_refuted_packed`. -/
theorem C98_merge_partial (C : Ctx) (hT : C.T.bigEndian = false) (hS : SchemaOk C) (hD : IsDefault C) (n : Nat) (idx : MessageIndex) (m : Message)
    (hm : C.D.getMessage idx = Option.some m) (x y : RVal) (hx : WellTyped C Plain n idx x) (hy : WellTyped C Plain n idx y)
    (ha : ∀ (j : Nat) (mem : Member) (a b : RVal), (members C.cfg m)[j]? = Option.some mem → x.slots[j]? = Option.some a → y.slots[j]? = Option.some b → Apart mem a b)
    (hsz : (writeImpl C n idx).get_size x + (writeImpl C n idx).get_size y < 2 ^ 32)
    (hbits : (writeImpl C n idx).get_size x + (writeImpl C n idx).get_size y < 2 ^ C.T.usizeBits) :
    ∃ ex ey v, Emits ((writeImpl C n idx).write_message x) ex ∧ Emits ((writeImpl C n idx).write_message y) ey ∧
      decode C idx (ex ++ ey) = .ok v ∧ v.obs = (merge C n idx x y).obs := by
  obtain ⟨ex, ey, v, h1, h2, h3, h4⟩ := C98_overlay C hT hS hD n idx m hm x y hx hy hsz hbits
  refine ⟨ex, ey, v, h1, h2, h3, h4.trans ?_⟩
  cases n with
  | zero => exact hx.elim
  | succ n =>
  obtain ⟨m1, sx, hm1, rfl, hlx, htx⟩ := hx
  obtain ⟨m2, sy, hm2, rfl, hly, hty⟩ := hy
  rw [hm] at hm1 hm2
  cases hm1
  cases hm2
  simp only [RVal.slots] at ha
  simp only [overlay, merge, hm, RVal.obs, RVal.slots, RVal.struct.injEq, obsList_eq]
  apply List.ext_getElem?
  intro j
  rw [List.getElem?_map, List.getElem?_map, List.getElem?_zipWith, List.getElem?_zipWith]
  cases hj : (members C.cfg m)[j]? with
  | none => rfl
  | some mem =>
    obtain ⟨a, hqa, tya⟩ := typed_slot hlx htx hj
    obtain ⟨b, hqb, tyb⟩ := typed_slot hly hty hj
    have hz : (sx.zip sy)[j]? = Option.some (a, b) := by rw [List.getElem?_zip_eq_some]; exact ⟨hqa, hqb⟩
    simp only [hz, Option.map_some, Option.some.injEq]
    exact overlay_merge (Q := Plain) (subT := WellTyped C Plain n) _ wellTyped_notVoid tya tyb (ha j mem a b hj hqa hqb)

/-! ## An example, and what is missing -/

namespace Example

/-- A `Node` with another `id`, another tag, an entry for a key that `value` has too, another choice; without a child and without numbers. -/
def update : RVal :=
  .struct [.w32 9, .bytes [], .vec [], .pf32 .noDataYet, .vec [.bytes [0x62#8]], .map [(.bytes [0x6b#8], .w32 8)], .none, .w32 0, .w32 5,
    .choice 0 (.bool true)]

theorem update_typed (T : Target) (n : Nat) : WellTyped (ctx T) Plain (n + 1) [0] update := by
  refine wellTyped_of ?_ ?_ ?_ ?_ ?_ ?_ ?_ ?_ ?_ ?_
  · exact ⟨⟨_, rfl⟩, fun _ => ⟨rfl, (fun h => by cases h), (fun h => by cases h)⟩⟩
  · exact ⟨⟨_, rfl, utf8_nil⟩, fun _ => ⟨rfl, (fun h => by cases h), (fun h => by cases h)⟩⟩
  · exact ⟨[], rfl, by simp⟩
  · exact ⟨_, rfl, by intro b h; cases h⟩
  · refine ⟨[.bytes [0x62#8]], rfl, ?_⟩
    intro x hx
    simp only [List.mem_cons, List.not_mem_nil, or_false] at hx
    subst hx
    exact ⟨_, rfl, utf8_b⟩
  · refine ⟨_, _, [(.bytes [0x6b#8], .w32 8)], rfl, rfl, ?_, by simp⟩
    intro x hx
    simp only [List.mem_cons, List.not_mem_nil, or_false] at hx
    subst hx
    exact ⟨⟨_, rfl, utf8_k⟩, ⟨_, rfl⟩⟩
  · exact Or.inl rfl
  · exact ⟨⟨_, rfl⟩, fun _ => ⟨rfl, (fun _ h => by cases h), (fun h => by cases h)⟩⟩
  · exact ⟨⟨_, rfl, (by decide : (5 : BitVec 32) ∈ [0#32, 5#32])⟩, fun _ => ⟨rfl, (fun h => by cases h), (fun h => by cases h)⟩⟩
  · exact Or.inr ⟨0, fA, _, rfl, rfl, ⟨_, rfl⟩⟩

theorem update_apart (T : Target) : ∀ (j : Nat) (mem : Member) (a b : RVal), (members (ctx T).cfg node)[j]? = Option.some mem →
    value.slots[j]? = Option.some a → update.slots[j]? = Option.some b → Apart mem a b := by
  intro j mem a b hm ha hb
  rw [node_members] at hm
  match j with
  | 0 | 1 | 2 | 3 | 4 | 5 | 6 | 7 | 8 | 9 =>
    all_goals first
      | (cases hm; cases ha; cases hb; exact fun _ => Or.inr rfl)
      | (cases hm; cases ha; cases hb; rintro ⟨i, hi⟩; cases hi)
      | (cases hm; cases ha; cases hb; intro i f a b h1 h2; cases h1; cases h2; done)
      | (cases hm; cases ha; cases hb; intro h; cases h; done)
      | (cases hm; cases ha; cases hb; trivial)
  | j + 10 => cases hm

end Example

/-- **C98**, an example: `update` after `value`. The decoded node has the `id`, kind and choice of `update`, the name, numbers and child of
`value`, the tags of both, and the entries of both. -/
theorem C98_example : ∃ ex ey v,
    Emits ((writeImpl (Example.ctx Target.debug64) 2 [0]).write_message Example.value) ex ∧
    Emits ((writeImpl (Example.ctx Target.debug64) 2 [0]).write_message Example.update) ey ∧
    decode (Example.ctx Target.debug64) [0] (ex ++ ey) = .ok v ∧ v.obs =
      .struct [.w32 9, .bytes [0x61#8], .vec [.w64 (-5), .w64 3], .pf32 (.owned [0x04030201#32]), .vec [.bytes [0x62#8], .bytes [], .bytes [0x62#8]],
        .map [(.bytes [0x6b#8], .w32 8), (.bytes [], .w32 0)], .some Example.leaf.obs, .w32 0xc0490fdb#32, .w32 5, .choice 0 (.bool true)] := by
  obtain ⟨ex, ey, v, h1, h2, h3, h4⟩ := C98_merge_partial (Example.ctx Target.debug64) rfl (Example.schemaOk _) (Example.isDefault _) 2 [0] Example.node
    (Example.get_node0 _) Example.value Example.update (Example.value_typed _ 0) (Example.update_typed _ 1) (Example.update_apart _) (by decide) (by decide)
  exact ⟨ex, ey, v, h1, h2, h3, h4.trans rfl⟩

namespace Example

/-- Only a child, with the `id` set. -/
def childId : RVal :=
  .struct [.w32 0, .bytes [], .vec [], .pf32 .noDataYet, .vec [], .map [], .some (.struct [.w32 1, .bytes [], .vec [], .pf32 .noDataYet, .vec [], .map [], .none,
    .w32 0, .w32 0, .none]), .w32 0, .w32 0, .none]

/-- Only a child, with the name set. -/
def childName : RVal :=
  .struct [.w32 0, .bytes [], .vec [], .pf32 .noDataYet, .vec [], .map [], .some (.struct [.w32 0, .bytes [0x61#8], .vec [], .pf32 .noDataYet, .vec [], .map [], .none,
    .w32 0, .w32 0, .none]), .w32 0, .w32 0, .none]

/-- Only packed numbers. -/
def numbers (n : BitVec 64) : RVal :=
  .struct [.w32 0, .bytes [], .vec [.w64 n], .pf32 .noDataYet, .vec [], .map [], .none, .w32 0, .w32 0, .none]

theorem simple_typed (T : Target) (n : Nat) (i : BitVec 32) (name : Bytes) (hu : ValidUtf8 name) (xs : List (BitVec 64)) (child : RVal)
    (hc : child = .none ∨ ∃ x, child = .some x ∧ WellTyped (ctx T) Plain n [0] x) :
    WellTyped (ctx T) Plain (n + 1) [0] (.struct [.w32 i, .bytes name, .vec (xs.map .w64), .pf32 .noDataYet, .vec [], .map [], child, .w32 0, .w32 0, .none]) := by
  refine wellTyped_of ?_ ?_ ?_ ?_ ?_ ?_ ?_ ?_ ?_ ?_
  · exact ⟨⟨_, rfl⟩, fun _ => ⟨rfl, (fun h => by cases h), (fun h => by cases h)⟩⟩
  · exact ⟨⟨_, rfl, hu⟩, fun _ => ⟨rfl, (fun h => by cases h), (fun h => by cases h)⟩⟩
  · refine ⟨_, rfl, ?_⟩
    intro x hx
    obtain ⟨y, _, rfl⟩ := List.mem_map.mp hx
    exact ⟨_, rfl⟩
  · exact ⟨_, rfl, by intro b h; cases h⟩
  · exact ⟨[], rfl, by simp⟩
  · exact ⟨_, _, [], rfl, rfl, by simp, by simp⟩
  · exact hc
  · exact ⟨⟨_, rfl⟩, fun _ => ⟨rfl, (fun _ h => by cases h), (fun h => by cases h)⟩⟩
  · exact ⟨⟨_, rfl, (by decide : (0 : BitVec 32) ∈ [0#32, 5#32])⟩, fun _ => ⟨rfl, (fun h => by cases h), (fun h => by cases h)⟩⟩
  · exact Or.inl rfl

end Example

/-- **C98** is false for messages: of two values with a child, the encodings one after the other are decoded as the second; the first child is
lost (`id: 1`), where the guide has it merged. -/
theorem C98_refuted_message : ∃ ex ey v,
    Emits ((writeImpl (Example.ctx Target.debug64) 2 [0]).write_message Example.childId) ex ∧
    Emits ((writeImpl (Example.ctx Target.debug64) 2 [0]).write_message Example.childName) ey ∧
    decode (Example.ctx Target.debug64) [0] (ex ++ ey) = .ok v ∧ v.obs = Example.childName.obs ∧
    v.obs ≠ (merge (Example.ctx Target.debug64) 2 [0] Example.childId Example.childName).obs := by
  have t1 : WellTyped (Example.ctx Target.debug64) Plain 2 [0] Example.childId :=
    Example.simple_typed _ 1 0 [] Example.utf8_nil [] _ (Or.inr ⟨_, rfl, Example.simple_typed _ 0 1 [] Example.utf8_nil [] .none (Or.inl rfl)⟩)
  have t2 : WellTyped (Example.ctx Target.debug64) Plain 2 [0] Example.childName :=
    Example.simple_typed _ 1 0 [] Example.utf8_nil [] _ (Or.inr ⟨_, rfl, Example.simple_typed _ 0 0 [0x61#8] Example.utf8_a [] .none (Or.inl rfl)⟩)
  obtain ⟨ex, ey, v, h1, h2, h3, h4⟩ := C98_overlay (Example.ctx Target.debug64) rfl (Example.schemaOk _) (Example.isDefault _) 2 [0] Example.node
    (Example.get_node0 _) Example.childId Example.childName t1 t2 (by decide) (by decide)
  refine ⟨ex, ey, v, h1, h2, h3, h4.trans rfl, ?_⟩
  rw [h4]
  intro h
  have e1 : (overlay (Example.ctx Target.debug64) Example.node Example.childId Example.childName).obs = Example.childName.obs := rfl
  have e2 : (merge (Example.ctx Target.debug64) 2 [0] Example.childId Example.childName).obs =
    .struct [.w32 0, .bytes [], .vec [], .pf32 (.owned []), .vec [], .map [], .some (.struct [.w32 1, .bytes [0x61#8], .vec [], .pf32 (.owned []), .vec [], .map [], .none,
      .w32 0, .w32 0, .none]), .w32 0, .w32 0, .none] := rfl
  rw [e1, e2] at h
  simp [Example.childName, RVal.obs, RVal.obsList] at h

/-- **C98** is false for packed fields: of two values with `xs: [1]` and `xs: [2]`, the encodings one after the other are decoded as `xs: [2]`,
where the guide has `xs: [1, 2]`. -/
theorem C98_refuted_packed : ∃ ex ey v,
    Emits ((writeImpl (Example.ctx Target.debug64) 1 [0]).write_message (Example.numbers 1)) ex ∧
    Emits ((writeImpl (Example.ctx Target.debug64) 1 [0]).write_message (Example.numbers 2)) ey ∧
    decode (Example.ctx Target.debug64) [0] (ex ++ ey) = .ok v ∧ v.obs = (Example.numbers 2).obs ∧
    v.obs ≠ (merge (Example.ctx Target.debug64) 1 [0] (Example.numbers 1) (Example.numbers 2)).obs := by
  have t1 : ∀ n, WellTyped (Example.ctx Target.debug64) Plain 1 [0] (Example.numbers n) := fun n =>
    Example.simple_typed _ 0 0 [] Example.utf8_nil [n] .none (Or.inl rfl)
  obtain ⟨ex, ey, v, h1, h2, h3, h4⟩ := C98_overlay (Example.ctx Target.debug64) rfl (Example.schemaOk _) (Example.isDefault _) 1 [0] Example.node
    (Example.get_node0 _) (Example.numbers 1) (Example.numbers 2) (t1 1) (t1 2) (by decide) (by decide)
  refine ⟨ex, ey, v, h1, h2, h3, h4.trans rfl, ?_⟩
  rw [h4]
  intro h
  have e1 : (overlay (Example.ctx Target.debug64) Example.node (Example.numbers 1) (Example.numbers 2)).obs = (Example.numbers 2).obs := rfl
  have e2 : (merge (Example.ctx Target.debug64) 1 [0] (Example.numbers 1) (Example.numbers 2)).obs =
    .struct [.w32 0, .bytes [], .vec [.w64 1, .w64 2], .pf32 (.owned []), .vec [], .map [], .none, .w32 0, .w32 0, .none] := rfl
  rw [e1, e2] at h
  simp [Example.numbers, RVal.obs, RVal.obsList] at h

end QP.Gen
