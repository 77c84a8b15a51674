import Verif.Proofs.Writer
/-! What the backends do with a sequence of primitive calls. -/

namespace QP
open Spec WriterBackend

/-! ### Vec -/

theorem VecWriter.op_run (o : Op) (v : Bytes) :
    (o.run : SM VecWriter Unit) ⟨v⟩ = (.ok (), ⟨v ++ o.bytes⟩) := by
  cases o <;> simp only [Op.run, Op.bytes, pb_write_u8, pb_write_u32, pb_write_i32, pb_write_f32,
    pb_write_u64, pb_write_i64, pb_write_f64, pb_write_all, VecWriter.write_all, le32_eq, le64_eq]

theorem VecWriter.runOps_eq (ops : List Op) (v : Bytes) :
    (runOps ops : SM VecWriter Unit) ⟨v⟩ = (.ok (), ⟨v ++ ops.flatMap Op.bytes⟩) := by
  induction ops generalizing v with
  | nil => simp [runOps, SM.pure_run]
  | cons o os ih =>
    simp only [runOps]
    rw [SM.bind_ok (VecWriter.op_run o v), ih]
    simp

theorem Emits.vec {p : WProg} {enc : Bytes} (h : Emits p enc) (v : Bytes) :
    p VecWriter ⟨v⟩ = (.ok (), ⟨v ++ enc⟩) := by
  obtain ⟨ops, h1, h2⟩ := h
  rw [h1, VecWriter.runOps_eq, h2]

/-- A program has only one encoding. -/
theorem Emits.unique {p : WProg} {a b : Bytes} (ha : Emits p a) (hb : Emits p b) : a = b := by
  have h1 := ha.vec []
  have h2 := hb.vec []
  rw [h1] at h2
  simpa using h2

/-! ### BytesWriter -/

theorem BytesWriter.op_run (o : Op) (w : BytesWriter) :
    (o.run : SM BytesWriter Unit) w = BytesWriter.put o.bytes.length o.bytes w := by
  cases o <;> simp only [Op.run, Op.bytes, pb_write_u8, pb_write_u32, pb_write_i32, pb_write_f32,
    pb_write_u64, pb_write_i64, pb_write_f64, pb_write_all, le32_eq, le64_eq, length_le,
    List.length_singleton]

theorem overwrite_length {buf bs : Bytes} {pos : Nat} (h : pos + bs.length ≤ buf.length) :
    (overwrite buf pos bs).length = buf.length := by
  simp [overwrite]; omega

theorem overwrite_overwrite {buf a b : Bytes} {pos : Nat} (h : pos + a.length ≤ buf.length) :
    overwrite (overwrite buf pos a) (pos + a.length) b = overwrite buf pos (a ++ b) := by
  simp only [overwrite]
  have e : (List.take pos buf ++ a).length = pos + a.length := by simp; omega
  rw [List.take_left' e, ← List.drop_drop, ]
  rw [List.drop_left' e]
  simp [List.drop_drop, Nat.add_assoc]

theorem overwrite_nil (buf : Bytes) (pos : Nat) : overwrite buf pos [] = buf := by
  simp [overwrite]

/-- All-or-nothing for a whole sequence, up to the first call that does not fit. -/
theorem BytesWriter.runOps_fits (ops : List Op) (buf : Bytes) (c : Nat) (enc : Bytes)
    (henc : ops.flatMap Op.bytes = enc) (h : c + enc.length ≤ buf.length) :
    (runOps ops : SM BytesWriter Unit) ⟨buf, c⟩ = (.ok (), ⟨overwrite buf c enc, c + enc.length⟩) := by
  subst henc
  induction ops generalizing buf c with
  | nil => simp [runOps, SM.pure_run, overwrite_nil]
  | cons o os ih =>
    simp only [List.flatMap_cons, List.length_append] at h
    simp only [runOps]
    have h1 : (o.run : SM BytesWriter Unit) ⟨buf, c⟩
        = (.ok (), ⟨overwrite buf c o.bytes, c + o.bytes.length⟩) := by
      rw [BytesWriter.op_run, BytesWriter.put]
      rw [if_neg (by simp; omega), if_neg (by simp; omega)]
    rw [SM.bind_ok h1, ih _ _ (by rw [overwrite_length (by omega)]; omega)]
    rw [overwrite_overwrite (by omega)]
    simp [Nat.add_assoc]

/-- When the whole does not fit, the run fails with `UnexpectedEndOfBuffer` after having stored a
proper prefix of the calls. -/
theorem BytesWriter.runOps_short (ops : List Op) (buf : Bytes) (c : Nat) (enc : Bytes)
    (henc : ops.flatMap Op.bytes = enc) (hc : c ≤ buf.length) (h : buf.length < c + enc.length) :
    ∃ pre : Bytes, pre <+: enc ∧ c + pre.length ≤ buf.length ∧
      (runOps ops : SM BytesWriter Unit) ⟨buf, c⟩
        = (.err .UnexpectedEndOfBuffer, ⟨overwrite buf c pre, c + pre.length⟩) := by
  subst henc
  induction ops generalizing buf c with
  | nil => simp at h; omega
  | cons o os ih =>
    simp only [List.flatMap_cons, List.length_append] at h
    simp only [runOps, List.flatMap_cons]
    by_cases hf : c + o.bytes.length ≤ buf.length
    · have h1 : (o.run : SM BytesWriter Unit) ⟨buf, c⟩
          = (.ok (), ⟨overwrite buf c o.bytes, c + o.bytes.length⟩) := by
        rw [BytesWriter.op_run, BytesWriter.put]
        rw [if_neg (by simp; omega), if_neg (by simp; omega)]
      obtain ⟨pre, hp, hl, hr⟩ := ih (overwrite buf c o.bytes) (c + o.bytes.length)
        (by rw [overwrite_length hf]; exact hf) (by rw [overwrite_length hf]; omega)
      rw [overwrite_length hf] at hl
      refine ⟨o.bytes ++ pre, (List.prefix_append_right_inj _).mpr hp, by simp; omega, ?_⟩
      rw [SM.bind_ok h1, hr, overwrite_overwrite hf]
      simp [Nat.add_assoc]
    · refine ⟨[], List.nil_prefix, by simpa using hc, ?_⟩
      have h1 : (o.run : SM BytesWriter Unit) ⟨buf, c⟩ = (.err .UnexpectedEndOfBuffer, ⟨buf, c⟩) := by
        rw [BytesWriter.op_run, BytesWriter.put]
        rw [if_neg (by simp; omega), if_pos (by simp; omega)]
      rw [SM.bind_err h1, overwrite_nil]
      rfl

/-! ### any `io::Write` -/

/-- What a device has received after a call: the old contents plus a prefix of the data, and all
of it exactly when the call succeeded. -/
def DeviceLaw (enc : Bytes) (d : Device) (res : Out Unit × Device) : Prop :=
  res.2.sched = d.sched ∧ res.2.fuel = d.fuel ∧
  ((res.1 = .ok () ∧ res.2.received = d.received ++ enc) ∨
   ((res.1 = .err .Io ∨ res.1 = .timeout) ∧
     ∃ pre, pre <+: enc ∧ res.2.received = d.received ++ pre))

theorem Device.writeAllLoop_law (fuel : Nat) (bs : Bytes) (d : Device) :
    DeviceLaw bs d (Device.writeAllLoop fuel bs d) := by
  induction fuel generalizing bs d with
  | zero =>
    exact ⟨rfl, rfl, Or.inr ⟨Or.inr rfl, [], List.nil_prefix, by simp [Device.writeAllLoop]⟩⟩
  | succ n ih =>
    simp only [Device.writeAllLoop]
    by_cases hb : bs.isEmpty = true
    · rw [if_pos hb]
      have : bs = [] := by simpa using hb
      subst this
      exact ⟨rfl, rfl, Or.inl ⟨rfl, by simp⟩⟩
    rw [if_neg hb]
    cases hs : d.sched d.calls with
    | accept k =>
      simp only
      by_cases hk : min k bs.length = 0
      · rw [if_pos hk]
        exact ⟨rfl, rfl, Or.inr ⟨Or.inl rfl, [], List.nil_prefix, by simp [hk]⟩⟩
      · rw [if_neg hk]
        obtain ⟨h1, h2, h3⟩ := ih (bs.drop (min k bs.length))
          { d with calls := d.calls + 1, received := d.received ++ bs.take (min k bs.length) }
        refine ⟨h1, h2, ?_⟩
        rcases h3 with ⟨h4, h5⟩ | ⟨h4, pre, hp, h5⟩
        · exact Or.inl ⟨h4, by rw [h5]; simp only [List.append_assoc, List.take_append_drop]⟩
        · refine Or.inr ⟨h4, bs.take (min k bs.length) ++ pre, ?_, by rw [h5]; simp only [List.append_assoc]⟩
          conv => rhs; rw [← List.take_append_drop (min k bs.length) bs]
          exact (List.prefix_append_right_inj _).mpr hp
    | interrupted =>
      obtain ⟨h1, h2, h3⟩ := ih bs { d with calls := d.calls + 1 }
      exact ⟨h1, h2, h3⟩
    | fail =>
      exact ⟨rfl, rfl, Or.inr ⟨Or.inl rfl, [], List.nil_prefix, by simp⟩⟩

theorem Device.op_law (o : Op) (d : Device) : DeviceLaw o.bytes d ((o.run : SM Device Unit) d) := by
  cases o <;> simp only [Op.run, Op.bytes, pb_write_u8, pb_write_u32, pb_write_i32, pb_write_f32,
    pb_write_u64, pb_write_i64, pb_write_f64, pb_write_all, Device.write_all, ← le32_eq, ← le64_eq] <;>
    exact Device.writeAllLoop_law _ _ _

theorem Device.runOps_law (ops : List Op) (d : Device) :
    DeviceLaw (ops.flatMap Op.bytes) d ((runOps ops : SM Device Unit) d) := by
  induction ops generalizing d with
  | nil => exact ⟨rfl, rfl, Or.inl ⟨rfl, by simp [runOps, SM.pure_run]⟩⟩
  | cons o os ih =>
    simp only [runOps, List.flatMap_cons]
    obtain ⟨h1, h2, h3⟩ := Device.op_law o d
    rcases hr : (o.run : SM Device Unit) d with ⟨x, d'⟩
    rw [hr] at h1 h2 h3
    rcases h3 with ⟨h4, h5⟩ | ⟨h4, pre, hp, h5⟩
    · simp only at h1 h2 h4 h5
      subst h4
      rw [SM.bind_ok hr]
      obtain ⟨g1, g2, g3⟩ := ih d'
      refine ⟨g1.trans h1, g2.trans h2, ?_⟩
      rcases g3 with ⟨g4, g5⟩ | ⟨g4, pre, hp, g5⟩
      · exact Or.inl ⟨g4, by rw [g5, h5]; simp⟩
      · exact Or.inr ⟨g4, o.bytes ++ pre, (List.prefix_append_right_inj _).mpr hp,
          by rw [g5, h5]; simp⟩
    · simp only at h1 h2 h4 h5
      have hb : (o.run >>= fun _ => runOps os : SM Device Unit) d = (x, d') := by
        rw [SM.bind_run, hr]
        rcases h4 with h4 | h4 <;> subst h4 <;> rfl
      rw [hb]
      exact ⟨h1, h2, Or.inr ⟨h4, pre, hp.trans (List.prefix_append _ _), h5⟩⟩

end QP
