import Verif.Props.Delimited
/-!
# C24–C28: backends, framed messages and streams
-/

set_option linter.unusedVariables false

namespace QP
open Spec BytesReader

/-! ## C24 -/

/-- **C24.** Run any writer program (anything built from the `Writer` methods emits some `enc`) on
any `std::io::Write` sink, whatever the sink answers and wherever it fails: either the result is
`Ok` and the sink received exactly the encoding, or the result is an I/O error — or, with a sink
that answers `Interrupted` forever, the call is still retrying — and what the sink received is a
prefix of the encoding. -/
theorem C24_backend_prefix (p : WProg) (enc : Bytes) (h : Emits p enc) (d : Device) :
    let res := p Device d
    (res.1 = .ok () ∧ res.2.received = d.received ++ enc) ∨
    ((res.1 = .err .Io ∨ res.1 = .timeout) ∧
      ∃ pre, pre <+: enc ∧ res.2.received = d.received ++ pre) := by
  obtain ⟨ops, h1, h2⟩ := h
  have := Device.runOps_law ops d
  rw [h2] at this
  simp only [h1]
  exact this.2.2

/-- A sink that accepts at least one byte per call never makes a write fail. -/
theorem Device.writeAllLoop_ok (sched : Nat → Resp) (hs : ∀ i, ∃ n, sched i = .accept (n + 1))
    (fuel : Nat) (bs : Bytes) (hf : bs.length < fuel) (d : Device) (hd : d.sched = sched) :
    (Device.writeAllLoop fuel bs d).1 = .ok () := by
  induction fuel generalizing bs d with
  | zero => omega
  | succ n ih =>
    simp only [Device.writeAllLoop]
    by_cases hb : bs.isEmpty = true
    · rw [if_pos hb]
    · rw [if_neg hb]
      obtain ⟨k, hk⟩ := hs d.calls
      have hl : 0 < bs.length := by
        cases bs with
        | nil => simp at hb
        | cons => simp
      rw [hd, hk]
      simp only
      rw [if_neg (by omega)]
      exact ih _ (by simp; omega) _ rfl

/-- **C24**, the good case: on a sink that accepts at least one byte per call (in pieces of any
size), writing succeeds and the sink receives exactly the encoding. -/
theorem C24_accepting_sink (p : WProg) (enc : Bytes) (h : Emits p enc) (d : Device)
    (hs : ∀ i, ∃ n, d.sched i = .accept (n + 1)) (hf : enc.length < d.fuel) :
    (p Device d).1 = .ok () ∧ (p Device d).2.received = d.received ++ enc := by
  obtain ⟨ops, h1, h2⟩ := h
  have hop : ∀ (o : Op) (d : Device), (∀ i, ∃ n, d.sched i = .accept (n + 1)) →
      o.bytes.length < d.fuel → ((o.run : SM Device Unit) d).1 = .ok () := by
    intro o d hs hf
    cases o <;> simp only [Op.bytes, ← le32_eq, ← le64_eq] at hf <;>
      exact Device.writeAllLoop_ok d.sched hs d.fuel _ hf d rfl
  have key : ∀ (ops : List Op) (d : Device), (∀ i, ∃ n, d.sched i = .accept (n + 1)) →
      (ops.flatMap Op.bytes).length < d.fuel → ((runOps ops : SM Device Unit) d).1 = .ok () := by
    intro ops
    induction ops with
    | nil => intro d _ _; rfl
    | cons o os ih =>
      intro d hs hf
      simp only [List.flatMap_cons, List.length_append] at hf
      obtain ⟨g1, g2, _⟩ := Device.op_law o d
      have g3 := hop o d hs (by omega)
      rcases hr : (o.run : SM Device Unit) d with ⟨x, d'⟩
      rw [hr] at g1 g2 g3
      simp only at g1 g2 g3
      subst g3
      simp only [runOps]
      rw [SM.bind_ok hr]
      exact ih d' (by rw [g1]; exact hs) (by rw [g2]; omega)
  have hok : (p Device d).1 = .ok () := by
    rw [h1]; exact key ops d hs (by rw [h2]; exact hf)
  refine ⟨hok, ?_⟩
  rcases C24_backend_prefix p enc ⟨ops, h1, h2⟩ d with ⟨_, h⟩ | ⟨h | h, _⟩
  · exact h
  · rw [hok] at h; simp at h
  · rw [hok] at h; simp at h

example : ∃ enc, Emits (fun W _ => write_string [0x68#8, 0x69#8]) enc ∧ enc.length = 3 :=
  ⟨_, emits_bytes (by decide), by simp [delimited, varint]⟩

/-! ## C25 -/

/-- **C25.** A program that stands for the bytes `enc`, run on a `BytesWriter` whose cursor is in
the buffer: it succeeds iff `enc` fits; in any case the buffer keeps its length, the cursor stays
in it, the bytes before the old cursor and from the new cursor on are untouched, and the bytes
between the two cursors are a prefix of `enc` — all of it iff the run succeeded. -/
theorem C25_bytes_writer (p : WProg) (enc : Bytes) (h : Emits p enc) (w : BytesWriter)
    (hc : w.cursor ≤ w.buf.length) :
    let res := p BytesWriter w
    let n := res.2.cursor
    (res.1 = .ok () ↔ w.cursor + enc.length ≤ w.buf.length) ∧
    (res.1 = .ok () ∨ res.1 = .err .UnexpectedEndOfBuffer) ∧
    res.2.buf.length = w.buf.length ∧ w.cursor ≤ n ∧ n ≤ w.buf.length ∧
    res.2.buf.take w.cursor = w.buf.take w.cursor ∧
    res.2.buf.drop n = w.buf.drop n ∧
    (res.2.buf.drop w.cursor).take (n - w.cursor) <+: enc ∧
    (res.1 = .ok () → (res.2.buf.drop w.cursor).take (n - w.cursor) = enc) := by
  obtain ⟨ops, h1, h2⟩ := h
  obtain ⟨buf, c⟩ := w
  simp only at hc
  have shape : ∀ pre : Bytes, c + pre.length ≤ buf.length →
      (overwrite buf c pre).take c = buf.take c ∧
      (overwrite buf c pre).drop (c + pre.length) = buf.drop (c + pre.length) ∧
      ((overwrite buf c pre).drop c).take (c + pre.length - c) = pre := by
    intro pre hl
    have e : (buf.take c).length = c := by simp; omega
    unfold overwrite
    refine ⟨?_, ?_, ?_⟩
    · rw [List.append_assoc, List.take_left' e]
    · rw [List.drop_left' (by simp; omega)]
    · rw [List.append_assoc, List.drop_left' e, Nat.add_sub_cancel_left, List.take_left' rfl]
  by_cases hf : c + enc.length ≤ buf.length
  · have hr := BytesWriter.runOps_fits ops buf c enc h2 hf
    obtain ⟨s1, s2, s3⟩ := shape enc hf
    simp only [h1, hr]
    refine ⟨by simp [hf], by simp, overwrite_length hf, by omega, hf, s1, s2, ?_, fun _ => s3⟩
    rw [s3]; exact List.prefix_refl _
  · obtain ⟨pre, hp, hl, hr⟩ := BytesWriter.runOps_short ops buf c enc h2 hc (by omega)
    obtain ⟨s1, s2, s3⟩ := shape pre hl
    simp only [h1, hr]
    refine ⟨by simp [hf], by simp, overwrite_length hl, by omega, hl, s1, s2, ?_, by simp⟩
    rw [s3]; exact hp

/-- **C25**, primitive writes: all or nothing. -/
theorem C25_primitive_all_or_nothing (o : Op) (w : BytesWriter) (hc : w.cursor ≤ w.buf.length) :
    (w.cursor + o.bytes.length ≤ w.buf.length ∧ (o.run : SM BytesWriter Unit) w
      = (.ok (), ⟨overwrite w.buf w.cursor o.bytes, w.cursor + o.bytes.length⟩)) ∨
    (w.buf.length < w.cursor + o.bytes.length ∧
      (o.run : SM BytesWriter Unit) w = (.err .UnexpectedEndOfBuffer, w)) := by
  rw [BytesWriter.op_run, BytesWriter.put, if_neg (by omega)]
  by_cases h : w.buf.length - w.cursor < o.bytes.length
  · exact Or.inr ⟨by omega, by rw [if_pos h]⟩
  · exact Or.inl ⟨by omega, by rw [if_neg h]⟩

/-! ## C26, C27 -/

/-- The `MessageWrite` contract for one value: `write_message` emits `enc`, and `get_size` is its
length (which fits in the 64 bit prefix). C32 shows that all generated code meets it. -/
def ExactWrite {M : Type} (I : MessageWrite M) (m : M) (enc : Bytes) : Prop :=
  Emits (I.write_message m) enc ∧ I.get_size m = enc.length ∧ enc.length < 2 ^ 64

theorem emits_message {M : Type} {I : MessageWrite M} {m : M} {enc : Bytes}
    (h : ExactWrite I m enc) : Emits (fun W _ => write_message I m) (delimited enc) := by
  obtain ⟨h1, h2, h3⟩ := h
  unfold write_message delimited
  simp only [h2]
  exact Emits.bind (emits_varint_ofNat h3) h1

theorem sizeof_len_eq {enc : Bytes} (h : enc.length < 2 ^ 64) :
    sizeof_len enc.length = (delimited enc).length := by
  unfold sizeof_len delimited
  rw [sizeof_varint_eq, BitVec.toNat_ofNat, Nat.mod_eq_of_lt h, List.length_append]

/-- **C26.** `serialize_into_slice` succeeds iff the slice has room for the framed message
(`sizeof_len(get_size)` bytes), and then holds it followed by its old tail; otherwise it returns
`OutputBufferTooSmall` and the slice is unchanged. -/
theorem C26_slice_iff_fits {M : Type} (I : MessageWrite M) (m : M) (enc : Bytes)
    (h : ExactWrite I m enc) (out : Bytes) :
    sizeof_len (I.get_size m) = (delimited enc).length ∧
    ((delimited enc).length ≤ out.length →
      serialize_into_slice I m out
        = (.ok (), delimited enc ++ out.drop (delimited enc).length)) ∧
    (out.length < (delimited enc).length →
      serialize_into_slice I m out = (.err .OutputBufferTooSmall, out)) := by
  have hs := sizeof_len_eq h.2.2
  have hg := h.2.1
  refine ⟨by rw [hg, hs], fun hl => ?_, fun hl => ?_⟩
  · obtain ⟨ops, h1, h2⟩ := emits_message h
    have hr := BytesWriter.runOps_fits ops out 0 (delimited enc) h2 (by omega)
    simp only [serialize_into_slice, hg, hs]
    rw [if_neg (by omega)]
    have : write_message I m (BytesWriter.new out)
        = (.ok (), ⟨overwrite out 0 (delimited enc), 0 + (delimited enc).length⟩) := by
      have := congrFun (h1 BytesWriter) (BytesWriter.new out)
      exact this.trans hr
    rw [this]
    simp [overwrite]
  · simp only [serialize_into_slice, hg, hs]
    rw [if_pos hl]

/-- **C27.** `serialize_into_vec` always succeeds, yields `sizeof_len(get_size)` bytes, and these
are exactly the bytes `serialize_into_slice` puts at the front of any slice that is large enough. -/
theorem C27_vec_slice_agree {M : Type} (I : MessageWrite M) (m : M) (enc : Bytes)
    (h : ExactWrite I m enc) :
    ∃ v, serialize_into_vec I m = .ok v ∧ v = delimited enc ∧
      v.length = sizeof_len (I.get_size m) ∧
      ∀ out, v.length ≤ out.length →
        serialize_into_slice I m out = (.ok (), v ++ out.drop v.length) := by
  refine ⟨delimited enc, ?_, rfl, (C26_slice_iff_fits I m enc h []).1.symm,
    fun out => (C26_slice_iff_fits I m enc h out).2.1⟩
  have := (emits_message h).vec []
  simp only [serialize_into_vec, this, List.nil_append]

/-! ## C28 -/

/-- **C28**, framed messages: for any reader/writer pair such that the reader, limited to what the
writer emits for `m`, decodes `m`, `deserialize_from_slice` inverts `serialize_into_vec` (for
messages below 4 GiB, the limit of the 32 bit prefix, see C11). -/
theorem C28_framed_roundtrip (T : Target) {M : Type} (I : MessageWrite M)
    (from_reader : Bytes → RM M) (m : M) (enc : Bytes) (h : ExactWrite I m enc)
    (hlen : enc.length < 2 ^ 32) (hr : ReadsAll T from_reader enc m)
    (hT : (delimited enc).length < 2 ^ T.usizeBits) :
    ∃ v, serialize_into_vec I m = .ok v ∧ deserialize_from_slice T from_reader v = .ok m := by
  obtain ⟨v, h1, h2, _⟩ := C27_vec_slice_agree I m enc h
  refine ⟨v, h1, ?_⟩
  subst h2
  have := readsAs_len_varint (T := T) hlen hr.weak [] [] (delimited enc).length
    (by simpa using hT) (by simp)
  simp only [List.nil_append, List.append_nil, List.length_nil] at this
  simp only [deserialize_from_slice, read_message, BytesReader.from_bytes]
  rw [this]

/-- The documented loop over a stream of framed messages:
`while !reader.is_eof() { msgs.push(reader.read_message(bytes)?); }`. -/
def readStream {M : Type} (T : Target) (fuel : Nat) (from_reader : Bytes → RM M) (bytes : Bytes) :
    RM (List M) := do
  let v ← whileNotEof (fun (acc : List M) => do
    let m ← read_message T bytes (from_reader bytes)
    pure (m :: acc)) fuel []
  pure v.reverse

/-- **C28**, streams: the concatenation of framed messages is read back as the same list. -/
theorem C28_stream_roundtrip (T : Target) {M : Type} (I : MessageWrite M)
    (from_reader : Bytes → RM M) (msgs : List (M × Bytes))
    (h : ∀ x ∈ msgs, ExactWrite I x.1 x.2 ∧ x.2.length < 2 ^ 32 ∧ ReadsAll T from_reader x.2 x.1) :
    ∃ v, Emits (fun W _ => writeEach (fun x => write_message I x) (msgs.map Prod.fst)) v ∧
      (v.length < 2 ^ T.usizeBits → ∀ fuel, msgs.length < fuel →
        (readStream T fuel from_reader v (BytesReader.from_bytes v))
          = (.ok (msgs.map Prod.fst), ⟨v.length, v.length⟩)) := by
  refine ⟨msgs.flatMap (fun x => delimited x.2), ?_, ?_⟩
  · have key : ∀ l : List (M × Bytes), (∀ x ∈ l, ExactWrite I x.1 x.2) →
        Emits (fun W _ => writeEach (fun x => write_message I x) (l.map Prod.fst))
          (l.flatMap (fun x => delimited x.2)) := by
      intro l
      induction l with
      | nil => intro _; exact Emits.nil
      | cons x xs ih =>
        intro hx
        exact Emits.bind (emits_message (hx x (by simp))) (ih (fun y hy => hx y (by simp [hy])))
    exact key msgs (fun x hx => (h x hx).1)
  · intro hT fuel hf
    have step : ∀ x ∈ msgs, ∀ acc : List M, ReadsAs T (fun b => do
        let m ← read_message T b (from_reader b)
        pure (m :: acc)) (delimited x.2) (x.1 :: acc) := by
      intro x hx acc
      exact ReadsAs.map (fun m => m :: acc) (readsAs_len_varint (h x hx).2.1 (h x hx).2.2.weak)
    have := readsAll_loop (T := T) (step := fun b (acc : List M) => do
        let m ← read_message T b (from_reader b)
        pure (m :: acc)) (enc := fun x : M × Bytes => delimited x.2) (upd := fun acc x => x.1 :: acc)
      msgs (by
        intro x hx h0
        have := congrArg List.length h0
        have hp := length_varint_pos x.2.length
        simp only [delimited, List.length_append, List.length_nil] at this
        omega) step [] fuel hf [] []
      (by simpa using hT)
    simp only [List.nil_append, List.append_nil, List.length_nil, Nat.zero_add] at this
    have hrev : ∀ (l : List (M × Bytes)) (acc : List M),
        (l.foldl (fun acc x => x.1 :: acc) acc).reverse = acc.reverse ++ l.map Prod.fst := by
      intro l
      induction l with
      | nil => intro acc; simp
      | cons x xs ih => intro acc; simp
    simp only [readStream, BytesReader.from_bytes]
    rw [SM.bind_ok this, SM.pure_run, hrev]
    simp

/-- A message type meeting the contract (one string field written bare), so that the hypotheses of
C26–C28 are satisfiable. -/
example : ∃ (I : MessageWrite Bytes) (from_reader : Bytes → RM Bytes),
    ExactWrite I [1#8, 2#8] (delimited [1#8, 2#8]) ∧
    ReadsAll Target.debug64 from_reader (delimited [1#8, 2#8]) [1#8, 2#8] := by
  refine ⟨⟨fun m => (delimited m).length, fun m W _ => write_bytes m⟩,
    read_bytes Target.debug64, ⟨emits_bytes (by decide), rfl, by simp [delimited, varint]⟩, ?_⟩
  intro pre suf hl
  exact reads_bytes (by decide) pre suf _ hl (Nat.le_refl _)

end QP
