import Verif.Props.Decode
/-! Decoding a concatenation. -/

set_option linter.unusedVariables false

namespace QP.Gen
open QP.Pbrs Spec BytesReader

theorem Parses.length_le {U : Type} {R : Bytes → U → Prop} {b : Bytes} {us : List U} (h : Parses R b us)
    (hne : ∀ p u, R p u → p ≠ []) : us.length ≤ b.length := by
  induction h with
  | nil => simp
  | cons hu _ ih =>
    have := List.length_pos_iff.mpr (hne _ _ hu)
    simp only [List.length_cons, List.length_append]
    omega

/-- A loop consumes a sequence of pieces and goes on behind it. -/
theorem loop_prefix {T : Target} {A U : Type} {R : Bytes → U → Prop} {upd : A → U → A}
    {step : Bytes → A → RM A} {a : Bytes} {us : List U} (h : Parses R a us) (hne : ∀ p u, R p u → p ≠ [])
    (hs : ∀ p u acc, p.length ≤ a.length → R p u → ReadsAs T (fun b => step b acc) p (upd acc u))
    (pre suf : Bytes) (fin fuel : Nat) (acc : A) (hl : (pre ++ (a ++ suf)).length < 2 ^ T.usizeBits)
    (hfin : pre.length + a.length ≤ fin) (hf : us.length ≤ fuel) :
    whileNotEof (step (pre ++ (a ++ suf))) fuel acc ⟨pre.length, fin⟩ =
      whileNotEof (step (pre ++ (a ++ suf))) (fuel - us.length) (us.foldl upd acc) ⟨pre.length + a.length, fin⟩ := by
  induction h generalizing pre fuel acc with
  | nil => simp
  | @cons p q u us hu hq ih =>
    obtain ⟨fuel, rfl⟩ : ∃ k, fuel = k + 1 := ⟨fuel - 1, by simp at hf; omega⟩
    have hp := List.length_pos_iff.mpr (hne _ _ hu)
    simp only [List.length_append] at hfin hl
    have e1 : whileNotEof (step (pre ++ (p ++ q ++ suf))) (fuel + 1) acc ⟨pre.length, fin⟩ =
        whileNotEof (step (pre ++ (p ++ q ++ suf))) fuel (upd acc u) ⟨pre.length + p.length, fin⟩ := by
      rw [whileNotEof, SM.bind_run, SM.get_run]
      have : (BytesReader.mk pre.length fin).is_eof = false := by simp [is_eof]; omega
      simp only [this, Bool.false_eq_true, if_false]
      have hr := hs p u acc (by simp) hu pre (q ++ suf) fin (by simp only [List.length_append]; omega) (by omega)
      have el : pre ++ (p ++ q ++ suf) = pre ++ (p ++ (q ++ suf)) := by simp
      rw [el]
      exact SM.bind_ok hr
    rw [e1]
    have el : pre ++ (p ++ q ++ suf) = (pre ++ p) ++ (q ++ suf) := by simp
    rw [el]
    have := ih (fun p' u' acc hp' hu' => hs p' u' acc (by simp; omega) hu') (pre ++ p) fuel (upd acc u)
      (by simp only [List.length_append]; omega) (by simp only [List.length_append]; omega) (by simpa using hf)
    simp only [List.length_append] at this ⊢
    rw [this, List.foldl_cons, List.length_cons, Nat.add_assoc, Nat.add_sub_add_right]

/-- The generated loop on the concatenation of a sequence of records and anything. -/
theorem loop_concat {C : Ctx} (hT : C.T.overflowChecks = true) (hS : SchemaOk C) {idx : MessageIndex} {m : Message}
    (hm : C.D.getMessage idx = Option.some m) {a c : Bytes} {us : List (Option Item)} (hR : Roomy C.T (a ++ c))
    (h : Parses (Record C (Denotes C) m) a us) (d : List RVal) (n : Nat) (hn : (a ++ c).length ≤ n) :
    (whileNotEof (msgStep C (fromReader C n) (n + 1) (arms C.cfg m) (a ++ c)) (n + 1) d ⟨0, (a ++ c).length⟩).1 =
      (whileNotEof (msgStep C (fromReader C c.length) (c.length + 1) (arms C.cfg m) c) (c.length + 1)
        (slotsAfter d us) ⟨0, c.length⟩).1 := by
  simp only [List.length_append] at hn
  have hok := hS idx m hm
  have hl : ([] ++ (a ++ c)).length < 2 ^ C.T.usizeBits := by unfold Roomy at hR; simp only [List.nil_append]; omega
  have hus := h.length_le (fun _ _ => record_ne_nil)
  have h1 := loop_prefix (T := C.T) (step := fun b => msgStep C (fromReader C n) (n + 1) (arms C.cfg m) b)
    (upd := fun s u => u.elim s (applyItem s)) h (fun _ _ => record_ne_nil)
    (fun p u acc hp hu => msgStep_of_record hok
      (fun m' body v hb hd => by
        obtain ⟨k, hd⟩ := hd
        exact fromReader_of_dec hS k m' body v hd n (by omega)) (by omega) acc hu)
    [] c (a ++ c).length (n + 1) d hl (by simp) (by omega)
  simp only [List.nil_append, List.length_nil, Nat.zero_add] at h1
  rw [h1, foldl_slotsAfter us h.arms]
  have gs : ∀ k s, Good C.T (fun b => msgStep C (fromReader C k) (k + 1) (arms C.cfg m) b s) :=
    fun k s => good_msgStep hT (goodEntry_fromReader hT k) (k + 1) _ s
  have h2 := Agree.loop hR (step := fun b => msgStep C (fromReader C n) (n + 1) (arms C.cfg m) b)
    (step' := fun b => msgStep C (fromReader C c.length) (c.length + 1) (arms C.cfg m) b) (gs n)
    (fun s => adv_msgStep hT (goodEntry_fromReader hT n) _ _ s) (lo := a.length)
    (fun s => agree_msgStep hT hR (goodEntry_fromReader hT n)
      (fun hl i => agree_fromReader hT hR n c.length i (a.length + 1)
        (by simp only [List.length_append] at hl ⊢; omega) (by simp only [List.length_append] at hl ⊢; omega))
      (by simp only [List.length_append]; omega) (by simp only [List.length_append]; omega) _ s)
    (f := n + 1 - us.length) (f' := c.length + 1)
    (by simp only [List.length_append]; omega) (by simp only [List.length_append]; omega)
    (slotsAfter d us) ⟨a.length, (a ++ c).length⟩ (by unfold InRange; simp only [List.length_append]; omega) (by simp)
  replace h2 := h2.1
  simp only at h2
  rw [h2]
  have h3 := (Good.whileNotEof (step := fun b => msgStep C (fromReader C c.length) (c.length + 1) (arms C.cfg m) b)
    (gs c.length) (c.length + 1) (slotsAfter d us)).isLocal a c ⟨0, c.length⟩ hR (by unfold InRange; simp only; omega)
  simp only [BytesReader.shift, Nat.add_zero] at h3
  rw [List.length_append, h3]

end QP.Gen
