import Verif.Spec.File
/-!
# C99: loading a `Reader` from a source or a file
-/

set_option linter.unusedVariables false

namespace QP

theorem initialised_map (bs : Bytes) : initialised (bs.map some) = some bs := by
  induction bs with
  | nil => rfl
  | cons b bs ih => simp only [List.map_cons, initialised, ih]

theorem initialised_some : ∀ {l : List Cell} {bs : Bytes}, initialised l = some bs → l = bs.map some
  | [], bs, h => by cases h; rfl
  | none :: l, bs, h => by simp [initialised] at h
  | some b :: l, bs, h => by
    cases hl : initialised l with
    | none => simp [initialised, hl] at h
    | some r =>
      simp only [initialised, hl, Option.some.injEq] at h
      subst h
      rw [List.map_cons, ← initialised_some hl]

/-- `read_exact` on a source that keeps the contract: if it succeeds, the buffer is what the source delivered. -/
theorem readExact_honest {σ : Type} {src : Source σ} (hs : Honest src) : ∀ (fuel : Nat) (buf : List Cell) (s : σ),
    (∀ out s', readExact src fuel buf s = (.ok out, s') → ∃ bs : Bytes, out = bs.map some ∧ bs.length = buf.length ∧ Delivered src s bs s') ∧
    (∀ s', readExact src fuel buf s ≠ (.panic, s')) ∧ (∀ s', readExact src fuel buf s ≠ (.ub, s'))
  | 0, buf, s => by
    refine ⟨fun out s' h => ?_, fun s' h => ?_, fun s' h => ?_⟩ <;> simp [readExact] at h
  | fuel + 1, buf, s => by
    have hh := hs s buf
    unfold readExact
    cases hb : buf.isEmpty with
    | true =>
      simp only [if_true]
      have := List.isEmpty_iff.mp hb
      subst this
      refine ⟨fun out s' h => ?_, fun s' h => by simp at h, fun s' h => by simp at h⟩
      simp only [Prod.mk.injEq, Out.ok.injEq] at h
      obtain ⟨rfl, rfl⟩ := h
      exact ⟨[], rfl, rfl, .done⟩
    | false =>
      simp only [Bool.false_eq_true, if_false]
      rcases hr : src.read s buf with ⟨ev, buf', s1⟩
      rw [hr] at hh
      cases ev with
      | count n =>
        simp only
        by_cases h0 : n = 0
        · simp only [h0, if_true]
          refine ⟨fun out s' h => ?_, fun s' h => ?_, fun s' h => ?_⟩ <;> simp at h
        · simp only [h0, if_false]
          obtain ⟨hle, c, hc, htk⟩ := hh.2 n rfl
          rw [if_pos hle]
          obtain ⟨i1, i2, i3⟩ := readExact_honest hs fuel (buf'.drop n) s1
          rcases hq : readExact src fuel (buf'.drop n) s1 with ⟨o, s2⟩
          rw [hq] at i1 i2 i3
          cases o with
          | ok rest =>
            refine ⟨fun out s' h => ?_, fun s' h => by simp at h, fun s' h => by simp at h⟩
            simp only [Prod.mk.injEq, Out.ok.injEq] at h
            obtain ⟨rfl, rfl⟩ := h
            obtain ⟨bs, rfl, hl, hd⟩ := i1 rest s2 rfl
            have htk' : buf'.take n = c.map some := htk
            refine ⟨c ++ bs, by rw [htk', List.map_append], ?_, .chunk hr hc htk' hd⟩
            have h1 : buf'.length = buf.length := hh.1
            rw [List.length_append, hc, hl, List.length_drop]
            omega
          | panic => exact absurd rfl (i2 s2)
          | ub => exact absurd rfl (i3 s2)
          | err e => refine ⟨fun out s' h => ?_, fun s' h => ?_, fun s' h => ?_⟩ <;> simp at h
          | timeout => refine ⟨fun out s' h => ?_, fun s' h => ?_, fun s' h => ?_⟩ <;> simp at h
      | interrupted =>
        simp only
        obtain ⟨i1, i2, i3⟩ := readExact_honest hs fuel buf' s1
        refine ⟨fun out s' h => ?_, i2, i3⟩
        obtain ⟨bs, h1, h2, h3⟩ := i1 out s' h
        have h1' : buf'.length = buf.length := hh.1
        exact ⟨bs, h1, by omega, .interrupted hr h3⟩
      | failed =>
        refine ⟨fun out s' h => ?_, fun s' h => ?_, fun s' h => ?_⟩ <;> simp at h

/-- **C99**, any source that keeps the contract of `Read` (whatever it delivers, in whatever portions, with interruptions and errors): if
`Reader::from_reader(src, n)` succeeds, the reader is over exactly `n` bytes, those that the source delivered, and the source has delivered no more;
there is no panic, and no byte of the buffer is left uninitialised. -/
theorem C99_honest {σ : Type} (src : Source σ) (hs : Honest src) (fuel n : Nat) (s : σ) :
    (∀ r s', Reader.load src fuel n s = (.ok r, s') → ∃ bs : Bytes, r = Reader.from_bytes bs ∧ bs.length = n ∧ Delivered src s bs s') ∧
    (Reader.load src fuel n s).1 ≠ .panic ∧ (Reader.load src fuel n s).1 ≠ .ub := by
  obtain ⟨h1, h2, h3⟩ := readExact_honest hs fuel (List.replicate n none) s
  unfold Reader.load
  rcases hq : readExact src fuel (List.replicate n none) s with ⟨o, s1⟩
  rw [hq] at h1 h2 h3
  cases o with
  | ok buf =>
    obtain ⟨bs, rfl, hl, hd⟩ := h1 buf s1 rfl
    simp only [initialised_map]
    refine ⟨fun r s' h => ?_, by simp, by simp⟩
    simp only [Prod.mk.injEq, Out.ok.injEq] at h
    obtain ⟨rfl, rfl⟩ := h
    exact ⟨bs, rfl, by rw [hl, List.length_replicate], hd⟩
  | panic => exact absurd rfl (h2 s1)
  | ub => exact absurd rfl (h3 s1)
  | err e => refine ⟨fun r s' h => ?_, ?_, ?_⟩ <;> simp at *
  | timeout => refine ⟨fun r s' h => ?_, ?_, ?_⟩ <;> simp at *

/-- `read_exact` on a source that delivers a fixed text. -/
theorem readExact_delivers {σ : Type} {src : Source σ} {left : σ → Bytes} {patience : σ → Nat} (hd : Delivers src left patience) :
    ∀ (fuel : Nat) (buf : List Cell) (s : σ), buf.length + patience s < fuel →
    (buf.length ≤ (left s).length → ∃ s', readExact src fuel buf s = (.ok (((left s).take buf.length).map some), s') ∧ left s' = (left s).drop buf.length) ∧
    ((left s).length < buf.length → ∃ s', readExact src fuel buf s = (.err .Io, s') ∧ left s' = [])
  | 0, buf, s, hf => by omega
  | fuel + 1, buf, s, hf => by
    unfold readExact
    cases hb : buf.isEmpty with
    | true =>
      have := List.isEmpty_iff.mp hb
      subst this
      simp only [if_true, List.length_nil, Nat.zero_le, forall_const, List.take_zero, List.map_nil, List.drop_zero, Nat.not_lt_zero, false_implies, and_true]
      exact ⟨s, rfl, rfl⟩
    | false =>
      have hne : buf ≠ [] := fun h => by subst h; cases hb
      have hpos : 0 < buf.length := List.length_pos_iff.mpr hne
      simp only [Bool.false_eq_true, if_false]
      rcases hr : src.read s buf with ⟨ev, buf', s1⟩
      have hsz := hd.size s buf
      rw [hr] at hsz
      simp only at hsz
      cases ev with
      | count n =>
        obtain ⟨c1, c2, c3, c4, c5, c6⟩ := hd.count s buf n hne (by rw [hr])
        rw [hr] at c4 c5 c6
        simp only at c4 c5 c6 ⊢
        by_cases h0 : n = 0
        · have hl := c3 h0
          simp only [h0, if_true, hl, List.length_nil]
          refine ⟨fun h => by omega, fun _ => ⟨s1, rfl, ?_⟩⟩
          rw [c5, hl, List.drop_nil]
        · simp only [h0, if_false, if_pos c1]
          have hlen : (buf'.drop n).length = buf.length - n := by rw [List.length_drop]; omega
          obtain ⟨i1, i2⟩ := readExact_delivers hd fuel (buf'.drop n) s1 (by rw [hlen]; omega)
          rw [hlen, c5, List.length_drop] at i1 i2
          constructor
          · intro h
            obtain ⟨s', e1, e2⟩ := i1 (by omega)
            refine ⟨s', ?_, ?_⟩
            · rw [e1]
              simp only [Prod.mk.injEq, Out.ok.injEq, and_true]
              rw [c4, ← List.map_append]
              congr 1
              have : (left s).take buf.length = (left s).take (n + (buf.length - n)) := by congr 1; omega
              rw [this, List.take_add]
            · rw [e2, List.drop_drop]
              congr 1; omega
          · intro h
            obtain ⟨s', e1, e2⟩ := i2 (by omega)
            exact ⟨s', by rw [e1], e2⟩
      | interrupted =>
        obtain ⟨c1, c2⟩ := hd.interrupted s buf (by rw [hr])
        rw [hr] at c1 c2
        simp only at c1 c2 ⊢
        obtain ⟨i1, i2⟩ := readExact_delivers hd fuel buf' s1 (by omega)
        rw [hsz, c1] at i1 i2
        exact ⟨i1, i2⟩
      | failed => exact absurd (by rw [hr]) (hd.works s buf)

/-- **C99**, a source that delivers a fixed text, whatever the portions and interruptions: `Reader::from_reader(src, n)` gives a reader over the
first `n` bytes and leaves the rest in the source, or fails if there are not so many. (This is the simple model of C31.) -/
theorem C99_from_reader {σ : Type} (src : Source σ) (left : σ → Bytes) (patience : σ → Nat) (hd : Delivers src left patience) (fuel n : Nat) (s : σ)
    (hf : n + patience s < fuel) :
    (Reader.load src fuel n s).1 = Reader.from_reader (left s) n ∧
    (n ≤ (left s).length → (Reader.load src fuel n s).1 = .ok (Reader.from_bytes ((left s).take n)) ∧ left (Reader.load src fuel n s).2 = (left s).drop n) := by
  obtain ⟨h1, h2⟩ := readExact_delivers hd fuel (List.replicate n none) s (by rw [List.length_replicate]; exact hf)
  rw [List.length_replicate] at h1 h2
  unfold Reader.load Reader.from_reader
  by_cases hn : n ≤ (left s).length
  · obtain ⟨s', e1, e2⟩ := h1 hn
    simp only [e1, initialised_map, if_pos hn, e2, and_self, implies_true]
  · obtain ⟨s', e1, e2⟩ := h2 (by omega)
    simp only [e1, if_neg hn, true_and]
    exact fun h => absurd h hn

/-- **C99**, any target: `Reader::from_file` of a file that is there, shorter than the address space and not changed meanwhile loads the whole file. What
is missing: `C99_refuted_missing`, `C99_refuted_large`, `C99_refuted_grown`. -/
theorem C99_from_file_partial {σ : Type} (T : Target) (src : Source σ) (left : σ → Bytes) (patience : σ → Nat) (hd : Delivers src left patience)
    (content : Bytes) (s : σ) (hs : left s = content) (hT : content.length < 2 ^ T.usizeBits) (fuel : Nat) (hf : content.length + patience s < fuel) :
    Reader.from_file T src fuel (some content.length) (some s) = .ok (Reader.from_bytes content) := by
  simp only [Reader.from_file]
  rw [Nat.mod_eq_of_lt hT]
  have := (C99_from_reader src left patience hd fuel content.length s hf).2 (by rw [hs]; exact Nat.le_refl _)
  rw [this.1, hs, List.take_length]

/-- **C99**, any target, a file that changes between the two looks at it: if it has become shorter, the call fails; a file that cannot be opened
fails too. -/
theorem C99_shrunk {σ : Type} (T : Target) (src : Source σ) (left : σ → Bytes) (patience : σ → Nat) (hd : Delivers src left patience)
    (len : Nat) (hT : len < 2 ^ T.usizeBits) (s : σ) (h : (left s).length < len) (fuel : Nat) (hf : len + patience s < fuel) :
    Reader.from_file T src fuel (some len) (some s) = .err .Io ∧ Reader.from_file T src fuel (some len) none = .err .Io := by
  simp only [Reader.from_file, and_true]
  rw [Nat.mod_eq_of_lt hT, (C99_from_reader src left patience hd fuel len s hf).1, Reader.from_reader, if_neg (by omega)]

/-- **C99** is false for a file that is not there: `from_file` does not return an error, it panics; on every target, whatever else. -/
theorem C99_refuted_missing {σ : Type} (T : Target) (src : Source σ) (fuel : Nat) (opened : Option σ) : Reader.from_file T src fuel none opened = .panic := rfl

/-- **C99** is false for a file that grows between the two looks at it: the call succeeds with a part of the file (which can end within a message). -/
theorem C99_refuted_grown {σ : Type} (T : Target) (src : Source σ) (left : σ → Bytes) (patience : σ → Nat) (hd : Delivers src left patience)
    (len : Nat) (hT : len < 2 ^ T.usizeBits) (s : σ) (h : len < (left s).length) (fuel : Nat) (hf : len + patience s < fuel) :
    Reader.from_file T src fuel (some len) (some s) = .ok (Reader.from_bytes ((left s).take len)) ∧ (left s).take len ≠ left s := by
  simp only [Reader.from_file]
  rw [Nat.mod_eq_of_lt hT]
  refine ⟨((C99_from_reader src left patience hd fuel len s hf).2 (by omega)).1, fun he => ?_⟩
  have := congrArg List.length he
  rw [List.length_take] at this
  omega

/-- **C99** is false for large files on small targets: of a file of at least `2^usizeBits` bytes (4 GiB on 32 bit targets) the call silently loads the
first `length mod 2^usizeBits` bytes only. -/
theorem C99_refuted_large {σ : Type} (T : Target) (src : Source σ) (left : σ → Bytes) (patience : σ → Nat) (hd : Delivers src left patience)
    (content : Bytes) (s : σ) (hs : left s = content) (hT : 2 ^ T.usizeBits ≤ content.length) (fuel : Nat) (hf : content.length + patience s < fuel) :
    ∃ part, Reader.from_file T src fuel (some content.length) (some s) = .ok (Reader.from_bytes part) ∧ part.length = content.length % 2 ^ T.usizeBits ∧
      part <+: content ∧ part.length < content.length := by
  have hlt : content.length % 2 ^ T.usizeBits < 2 ^ T.usizeBits := Nat.mod_lt _ (Nat.two_pow_pos _)
  refine ⟨content.take (content.length % 2 ^ T.usizeBits), ?_, ?_, List.take_prefix _ _, ?_⟩
  · simp only [Reader.from_file]
    have := (C99_from_reader src left patience hd fuel (content.length % 2 ^ T.usizeBits) s (by omega)).2 (by rw [hs]; omega)
    rw [this.1, hs]
  · rw [List.length_take]; omega
  · rw [List.length_take]; omega

/-! ## Instances -/

/-- A file read at offset `p` with a schedule that says, for each call, how much is delivered (`some k`: at most `k + 1` bytes) or that the call is
interrupted (`none`); when the schedule is over, everything is delivered. -/
def scheduled (content : Bytes) : Source (Nat × List (Option Nat)) where
  read := fun (p, sched) buf =>
    match sched with
    | none :: sched => (.interrupted, buf, (p, sched))
    | some k :: sched =>
      let n := min (k + 1) (min buf.length (content.length - p))
      (.count n, ((content.drop p).take n).map some ++ buf.drop n, (p + n, sched))
    | [] =>
      let n := min buf.length (content.length - p)
      (.count n, ((content.drop p).take n).map some ++ buf.drop n, (p + n, []))

theorem take_aux {content : Bytes} {p n : Nat} {buf : List Cell} (h1 : n ≤ buf.length) (h2 : n ≤ content.length - p) :
    (((content.drop p).take n).map some ++ buf.drop n).length = buf.length ∧
    (((content.drop p).take n).map some ++ buf.drop n).take n = ((content.drop p).take n).map some := by
  have hl : (((content.drop p).take n).map some).length = n := by
    rw [List.length_map, List.length_take, List.length_drop]; omega
  constructor
  · rw [List.length_append, hl, List.length_drop]; omega
  · rw [List.take_append_of_le_length (by omega), List.take_of_length_le (by omega)]

/-- Every schedule delivers the file. -/
theorem scheduled_delivers (content : Bytes) :
    Delivers (scheduled content) (fun s => content.drop s.1) (fun s => (s.2.filter (·.isNone)).length) := by
  refine ⟨?_, ?_, ?_, ?_⟩
  · rintro ⟨p, sched⟩ buf
    match sched with
    | none :: sched => rfl
    | some k :: sched => exact (take_aux (by omega) (by omega)).1
    | [] => exact (take_aux (by omega) (by omega)).1
  · rintro ⟨p, sched⟩ buf n hne hc
    have hpos := List.length_pos_iff.mpr hne
    match sched with
    | none :: sched => cases hc
    | some k :: sched =>
      simp only [scheduled, ReadEvent.count.injEq] at hc ⊢
      have hn : n ≤ buf.length ∧ n ≤ content.length - p ∧ (n = 0 → content.length - p = 0) := by omega
      rw [hc]
      refine ⟨hn.1, by rw [List.length_drop]; exact hn.2.1, ?_, (take_aux hn.1 hn.2.1).2, by rw [List.drop_drop], by simp⟩
      intro h0
      rw [List.drop_eq_nil_iff]
      have := hn.2.2 h0
      omega
    | [] =>
      simp only [scheduled, ReadEvent.count.injEq] at hc ⊢
      have hn : n ≤ buf.length ∧ n ≤ content.length - p ∧ (n = 0 → content.length - p = 0) := by omega
      rw [hc]
      refine ⟨hn.1, by rw [List.length_drop]; exact hn.2.1, ?_, (take_aux hn.1 hn.2.1).2, by rw [List.drop_drop], by simp⟩
      intro h0
      rw [List.drop_eq_nil_iff]
      have := hn.2.2 h0
      omega
  · rintro ⟨p, sched⟩ buf hc
    match sched with
    | none :: sched => simp [scheduled]
    | some k :: sched => cases hc
    | [] => cases hc
  · rintro ⟨p, sched⟩ buf hc
    match sched with
    | none :: sched => cases hc
    | some k :: sched => cases hc
    | [] => cases hc

/-- **C99**, an example: whatever the schedule of short reads and interruptions, the file is loaded. -/
theorem C99_example (T : Target) (content : Bytes) (sched : List (Option Nat)) (hT : content.length < 2 ^ T.usizeBits) :
    Reader.from_file T (scheduled content) (content.length + sched.length + 1) (some content.length) (some (0, sched)) = .ok (Reader.from_bytes content) := by
  refine C99_from_file_partial T _ _ _ (scheduled_delivers content) content (0, sched) rfl hT _ ?_
  have := List.length_filter_le (fun x : Option Nat => x.isNone) sched
  simp only
  omega

/-- A source of safe code that says it has read a byte, and has not. -/
def liar : Source Unit where
  read := fun s buf => (.count 1, buf, s)

/-- A source that says it has read more than the buffer holds. -/
def boaster : Source Unit where
  read := fun s buf => (.count (buf.length + 1), buf, s)

/-- Without the contract there is no guarantee: `from_reader` hands out memory that was never initialised, with safe code only; or panics. -/
theorem C99_refuted_contract (n : Nat) :
    (Reader.load liar (n + 2) (n + 1) ()).1 = .ub ∧ (Reader.load boaster (n + 2) (n + 1) ()).1 = .panic := by
  have key : ∀ k, readExact liar (k + 1) (List.replicate k none) () = (.ok (List.replicate k none), ()) := by
    intro k
    induction k with
    | zero => rfl
    | succ k ih =>
      rw [readExact]
      simp only [List.replicate_succ, List.isEmpty_cons, Bool.false_eq_true, if_false, liar, Nat.one_ne_zero, List.length_cons, List.length_replicate,
        Nat.le_add_left, if_true, List.drop_succ_cons, List.drop_zero, List.take_succ_cons, List.take_zero, List.cons_append, List.nil_append]
      have ih' : readExact { read := fun s buf => (.count 1, buf, s) } (k + 1) (List.replicate k none) () = (.ok (List.replicate k none), ()) := ih
      rw [ih']
  constructor
  · unfold Reader.load
    rw [key (n + 1)]
    simp [List.replicate_succ, initialised]
  · have hn : ¬ n + 1 ≤ n := by omega
    simp [Reader.load, readExact, boaster, List.replicate_succ, hn]

end QP
