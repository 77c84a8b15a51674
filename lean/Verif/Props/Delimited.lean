import Verif.Props.Varint
/-!
# C09–C12, C14: length-delimited values, packed fields, map entries
-/

set_option linter.unusedVariables false

namespace QP
open Spec BytesReader

/-! ## C09 -/

theorem reads_bytes {T : Target} {bs : Bytes} (h : bs.length < 2 ^ 32) :
    ReadsAs T (read_bytes T) (delimited bs) bs :=
  readsAs_len_varint h (fun pre suf _ => ⟨_, getSelf_reads bs pre suf⟩)

theorem reads_string {T : Target} {bs : Bytes} (h : bs.length < 2 ^ 32) (hu : ValidUtf8 bs) :
    ReadsAs T (read_string T) (delimited bs) bs := by
  refine readsAs_len_varint h (fun pre suf _ => ⟨pre.length, ?_⟩)
  simp only [SM.bind_run, getSelf_reads, if_pos ((utf8Ok_iff bs).mpr hu), SM.pure_run]

theorem emits_string {bs : Bytes} (h : bs.length < 2 ^ 64) :
    Emits (fun W _ => (write_string bs : SM W Unit)) (delimited bs) := emits_bytes h

/-- **C09.** A byte string (a `str`) shorter than 4 GiB is written as its length and its bytes,
and read back identically anywhere in a buffer. -/
theorem C09_bytes_roundtrip (T : Target) (bs : Bytes) (h : bs.length < 2 ^ 32) :
    Emits (fun W _ => write_bytes bs) (delimited bs) ∧
    RoundTrip T (fun W _ => write_bytes bs) (read_bytes T) bs ∧
    (ValidUtf8 bs → RoundTrip T (fun W _ => write_string bs) (read_string T) bs) :=
  ⟨emits_bytes (by omega), ⟨_, emits_bytes (by omega), reads_bytes h⟩,
    fun hu => ⟨_, emits_string (by omega), reads_string h hu⟩⟩

example : read_string Target.debug64 [0x00#8, 0x02#8, 0xC3#8, 0xA9#8, 0x00#8] ⟨1, 5⟩
    = (.ok [0xC3#8, 0xA9#8], ⟨4, 5⟩) := by decide

/-! ## C10 -/

/-- **C10.** `read_string` on any buffer: it fails like the length prefix does; otherwise the
payload of the announced length must lie inside the buffer and be UTF-8, and is returned as is.
(`hov`: the end of the payload is representable in `usize`; always so on 64-bit targets.) -/
theorem C10_read_string_spec (T : Target) (bytes : Bytes) (r : BytesReader) :
    (∀ e r1, read_varint32 bytes r = (.err e, r1) → read_string T bytes r = (.err e, r1)) ∧
    (∀ len r1, read_varint32 bytes r = (.ok len, r1) → r1.start + len.toNat < 2 ^ T.usizeBits →
      let payload := (bytes.drop r1.start).take len.toNat
      (r1.start + len.toNat ≤ bytes.length → ValidUtf8 payload →
        read_string T bytes r = (.ok payload, ⟨r1.start + len.toNat, r.fin⟩)) ∧
      (r1.start + len.toNat ≤ bytes.length → ¬ ValidUtf8 payload →
        (read_string T bytes r).1 = .err .Utf8) ∧
      (bytes.length < r1.start + len.toNat →
        (read_string T bytes r).1 = .err .UnexpectedEndOfBuffer)) := by
  refine ⟨fun e r1 h => ?_, fun len r1 h hov => ?_⟩
  · simp only [read_string, read_len_varint, SM.bind_run, h]
  · have hfin : r1.fin = r.fin := by
      rw [read_varint32_scan] at h
      cases hs : scan 10 (bytes.drop r.start) <;> rw [hs] at h <;> simp [scanOut32] at h
      rw [← h.2]
    intro payload
    have hg : r1.start + len.toNat ≤ bytes.length →
        getRange bytes r1.start (r1.start + len.toNat) = some payload := by
      intro hl
      unfold getRange
      rw [if_pos (by omega)]
      congr 2; omega
    refine ⟨fun hl hu => ?_, fun hl hu => ?_, fun hl => ?_⟩
    · simp only [read_string, read_len_varint, SM.bind_run, h, read_len, SM.get_run, SM.lift_run,
        usizeAdd_ok hov, SM.set_run, getSelf, SM.okOr_run, hg hl, if_pos ((utf8Ok_iff payload).mpr hu),
        SM.pure_run, hfin]
    · have : ¬ utf8Ok payload = true := fun h => hu ((utf8Ok_iff payload).mp h)
      simp only [read_string, read_len_varint, SM.bind_run, h, read_len, SM.get_run, SM.lift_run,
        usizeAdd_ok hov, SM.set_run, getSelf, SM.okOr_run, hg hl, if_neg this,
        SM.throw_run]
    · have hg : getRange bytes r1.start (r1.start + len.toNat) = none := by
        unfold getRange; rw [if_neg (by omega)]
      simp only [read_string, read_len_varint, SM.bind_run, h, read_len, SM.get_run, SM.lift_run,
        usizeAdd_ok hov, SM.set_run, getSelf, SM.okOr_run, hg]

example : (read_string Target.debug64 [0x02#8, 0xC3#8, 0x28#8] ⟨0, 3⟩).1 = .err .Utf8 ∧
    (read_string Target.debug64 [0x02#8, 0xC3#8] ⟨0, 2⟩).1 = .err .UnexpectedEndOfBuffer := by decide

/-! ## C11 -/

/-- **C11**, partial: true for lengths below `2^32`. Missing: longer values, where it is false,
see `C11_length_truncated`. -/
theorem C11_length_kept_partial (T : Target) (bs : Bytes) (h : bs.length < 2 ^ 32) :
    RoundTrip T (fun W _ => write_bytes bs) (read_bytes T) bs := (C09_bytes_roundtrip T bs h).2.1

/-- **C11** is false from 4 GiB on: the length prefix is written as a 64 bit varint but read by
`read_varint32`, so only `len mod 2^32` bytes come back, with `Ok`. -/
theorem C11_length_truncated (T : Target) (bs : Bytes) (h : 2 ^ 32 ≤ bs.length)
    (hT : bs.length + 10 < 2 ^ T.usizeBits) (h64 : bs.length < 2 ^ 64) :
    ∃ enc, Emits (fun W _ => (write_bytes bs : SM W Unit)) enc ∧
      (read_bytes T enc (from_bytes enc)).1 = .ok (bs.take (bs.length % 2 ^ 32)) ∧
      bs.take (bs.length % 2 ^ 32) ≠ bs := by
  refine ⟨_, emits_bytes h64, ?_, ?_⟩
  · have hlen : (varint bs.length).length ≤ 10 := length_varint_64 h64
    have h1 := reads_varint32 (T := T) h64 [] bs (delimited bs).length
      (by simp; omega) (by simp [delimited])
    simp only [List.nil_append, List.length_nil, Nat.zero_add] at h1
    have e : (BitVec.ofNat 32 bs.length).toNat = bs.length % 2 ^ 32 := by rw [BitVec.toNat_ofNat]
    have hm : bs.length % 2 ^ 32 ≤ bs.length := Nat.mod_le _ _
    have h2 : getRange (delimited bs) (varint bs.length).length
        ((varint bs.length).length + bs.length % 2 ^ 32) = some (bs.take (bs.length % 2 ^ 32)) := by
      unfold getRange delimited
      rw [if_pos (by simp only [List.length_append]; omega), drop_pre]
      simp
    simp only [read_bytes, read_len_varint, from_bytes, SM.bind_run]
    rw [show delimited bs = varint bs.length ++ bs from rfl] at *
    rw [h1]
    simp only [read_len, SM.bind_run, SM.get_run, SM.lift_run, e,
      usizeAdd_ok (T := T) (a := (varint bs.length).length) (b := bs.length % 2 ^ 32) (by omega),
      SM.set_run, getSelf, SM.okOr_run, h2, SM.pure_run]
  · intro he
    have := congrArg List.length he
    have hm : bs.length % 2 ^ 32 < 2 ^ 32 := Nat.mod_lt _ (by omega)
    simp only [List.length_take] at this
    omega

example : ∃ bs : Bytes, 2 ^ 32 ≤ bs.length ∧ bs.length + 10 < 2 ^ Target.debug64.usizeBits :=
  ⟨List.replicate (2 ^ 32) 0, by rw [List.length_replicate]; exact Nat.le_refl _,
    by rw [List.length_replicate]; decide⟩

/-! ## C12 -/

/-- An element codec: writer, size and reader agree on `m`, whose encoding is `enc`. -/
structure CodecAt (T : Target) {M : Type} (write : M → WProg) (size : M → Nat) (read : Bytes → RM M)
    (m : M) (enc : Bytes) : Prop where
  emits : Emits (write m) enc
  size_eq : size m = enc.length
  reads : ReadsAs T read enc m
  nonempty : enc ≠ []

theorem foldl_cons_reverse {M : Type} (v acc : List M) :
    (v.foldl (fun a m => m :: a) acc).reverse = acc.reverse ++ v := by
  induction v generalizing acc with
  | nil => simp
  | cons x xs ih => rw [List.foldl_cons, ih]; simp

theorem sum_sizes {M : Type} {size : M → Nat} {enc : M → Bytes} {v : List M}
    (h : ∀ m ∈ v, size m = (enc m).length) : (v.map size).sum = (v.flatMap enc).length := by
  induction v with
  | nil => rfl
  | cons m ms ih =>
    have := ih (fun x hx => h x (by simp [hx]))
    simp only [List.map_cons, List.sum_cons, List.flatMap_cons, List.length_append, h m (by simp), this]

theorem reads_packed {T : Target} {M : Type} {read : Bytes → RM M} {enc : M → Bytes} {v : List M}
    (hr : ∀ m ∈ v, ReadsAs T read (enc m) m) (hne : ∀ m ∈ v, enc m ≠ [])
    (hlen : (v.flatMap enc).length < 2 ^ 32) (fuel : Nat) (hf : v.length < fuel) :
    ReadsAs T (fun b => read_packed T fuel b (read b)) (delimited (v.flatMap enc)) v := by
  refine readsAs_len_varint hlen (fun pre suf hl => ⟨pre.length + (v.flatMap enc).length, ?_⟩)
  have hloop := readsAll_loop (T := T)
    (step := fun b (acc : List M) => do let m ← read b; pure (m :: acc)) (enc := enc)
    (upd := fun a m => m :: a) v hne
    (fun m hm acc => (hr m hm).map (fun m => m :: acc)) [] fuel hf pre suf hl
  rw [SM.bind_ok hloop, SM.pure_run, foldl_cons_reverse]
  rfl

/-- **C12.** For any element codec, `write_packed` followed by `read_packed` gives the list back,
the length prefix is the size of the payload, and an empty list writes nothing.
(`fuel`: the loop of `read_packed` needs no more than one test per element plus one.) -/
theorem C12_packed_roundtrip (T : Target) {M : Type} (write : M → WProg) (size : M → Nat)
    (read : Bytes → RM M) (enc : M → Bytes) (v : List M)
    (hc : ∀ m ∈ v, CodecAt T write size read m (enc m))
    (hlen : (v.flatMap enc).length < 2 ^ 32) (tag : BitVec 32) :
    (v ≠ [] →
      Emits (fun W _ => write_packed v (fun m => write m W) size) (delimited (v.flatMap enc)) ∧
      Emits (fun W _ => write_packed_with_tag tag v (fun m => write m W) size)
        (varint tag.toNat ++ delimited (v.flatMap enc)) ∧
      ∀ fuel, v.length < fuel →
        ReadsAs T (fun b => read_packed T fuel b (read b)) (delimited (v.flatMap enc)) v) ∧
    (v = [] → Emits (fun W _ => write_packed v (fun m => write m W) size) [] ∧
      Emits (fun W _ => write_packed_with_tag tag v (fun m => write m W) size) []) := by
  constructor
  · intro hv
    have hemp : v.isEmpty = false := by cases v <;> simp_all
    have hsum := sum_sizes (fun m hm => (hc m hm).size_eq)
    have hbody : Emits (fun W _ => do
        (write_varint (BitVec.ofNat 64 (v.map size).sum) : SM W Unit)
        writeEach (fun m => write m W) v) (delimited (v.flatMap enc)) := by
      rw [hsum]
      exact Emits.bind (emits_varint_ofNat (by omega)) (Emits.each v (fun m hm => (hc m hm).emits))
    refine ⟨hbody.congr ?_ rfl, (Emits.bind (emits_tag tag) hbody).congr ?_ rfl, ?_⟩
    · intro W _; simp only [write_packed, hemp, Bool.false_eq_true, if_false]
    · intro W _; simp only [write_packed_with_tag, hemp, Bool.false_eq_true, if_false]
    · exact fun fuel hf => reads_packed (fun m hm => (hc m hm).reads) (fun m hm => (hc m hm).nonempty)
        hlen fuel hf
  · rintro rfl
    exact ⟨Emits.nil, Emits.nil⟩

/-- The hypotheses are met, e.g. by `int32` lists. -/
theorem int32_codec (T : Target) (m : BitVec 32) :
    CodecAt T (fun m W _ => write_int32 m) sizeof_int32 read_int32 m (varint (twos64 m.toInt)) where
  emits := emits_int32 m
  size_eq := by rw [sizeof_int32, sizeof_varint_eq, signExtend_toNat]
  reads := by
    have := reads_varint32 (T := T) (twos64_lt m.toInt)
    rwa [twos64_mod32] at this
  nonempty := varint_ne_nil _

example : (read_packed Target.debug64 5 [0x03#8, 0x01#8, 0xAC#8, 0x02#8]
    (read_int32 [0x03#8, 0x01#8, 0xAC#8, 0x02#8]) ⟨0, 4⟩).1 = .ok [1#32, 300#32] := by decide

/-! ## C14 -/

/-- One field of a map entry as it lies on the wire. -/
inductive EntryField (K V : Type) where
  | key (k : K)
  | val (v : V)

/-- The wire form of an entry field: a one-byte tag (field 1 or 2, any wire type), then the
payload. -/
def EntryField.enc {K V : Type} (wk wv : Nat) (ek : K → Bytes) (ev : V → Bytes) :
    EntryField K V → Bytes
  | .key k => BitVec.ofNat 8 (8 + wk) :: ek k
  | .val v => BitVec.ofNat 8 (16 + wv) :: ev v

/-- Keys and values overwrite what was there. -/
def EntryField.apply {K V : Type} (kv : K × V) : EntryField K V → K × V
  | .key k => (k, kv.2)
  | .val v => (kv.1, v)

theorem shift3 (n w : Nat) (hn : n < 32) (hw : w < 8) :
    (BitVec.ofNat 8 (8 * n + w)) >>> 3 = BitVec.ofNat 8 n := by
  apply BitVec.eq_of_toNat_eq
  simp only [BitVec.toNat_ushiftRight, BitVec.toNat_ofNat, Nat.shiftRight_eq_div_pow]
  omega

theorem reads_map {T : Target} {K V : Type} (wk wv : Nat) (hwk : wk < 8) (hwv : wv < 8)
    (ek : K → Bytes) (ev : V → Bytes) (rk : Bytes → RM K) (rv : Bytes → RM V)
    (hk : ∀ k, ReadsAs T rk (ek k) k) (hv : ∀ v, ReadsAs T rv (ev v) v)
    (fields : List (EntryField K V)) (k0 : K) (v0 : V) (fuel : Nat) (hf : fields.length < fuel)
    (hlen : (fields.flatMap (EntryField.enc wk wv ek ev)).length < 2 ^ 32) :
    ReadsAs T (fun b => read_map T fuel b k0 v0 (rk b) (rv b))
      (delimited (fields.flatMap (EntryField.enc wk wv ek ev)))
      (fields.foldl EntryField.apply (k0, v0)) := by
  suffices h : ReadsAll T (fun bytes => whileNotEof (fun (kv : K × V) => do
      let t ← read_u8 bytes
      let n := t >>> 3
      if n = 1#8 then do
        let k ← rk bytes
        pure (k, kv.2)
      else if n = 2#8 then do
        let v ← rv bytes
        pure (kv.1, v)
      else SM.throw (.Map n)) fuel (k0, v0)) (fields.flatMap (EntryField.enc wk wv ek ev))
      (fields.foldl EntryField.apply (k0, v0)) from
    readsAs_len_varint hlen (fun pre suf hl => ⟨_, h pre suf hl⟩)
  refine readsAll_loop fields ?_ ?_ (k0, v0) fuel hf
  · intro f _; cases f <;> simp [EntryField.enc]
  · intro f _ acc
    let q : Byte → Bytes → RM (K × V) := fun t bs =>
      if t >>> 3 = 1#8 then (do let k ← rk bs; pure (k, acc.2))
      else if t >>> 3 = 2#8 then (do let v ← rv bs; pure (acc.1, v))
      else SM.throw (.Map (t >>> 3))
    cases f with
    | key k =>
      have hq : ReadsAs T (q (BitVec.ofNat 8 (8 + wk))) (ek k) (k, acc.2) := by
        have := shift3 1 wk (by omega) hwk
        rw [Nat.mul_one] at this
        simp only [q, this, if_true]
        exact (hk k).map (fun k => (k, acc.2))
      exact ReadsAs.bind (ReadsAs.u8 _) hq
    | val v =>
      have hq : ReadsAs T (q (BitVec.ofNat 8 (16 + wv))) (ev v) (acc.1, v) := by
        have := shift3 2 wv (by omega) hwv
        rw [show 8 * 2 = 16 from rfl] at this
        have h21 : (2#8 = 1#8) = False := by decide
        simp only [q, this, if_true, h21, if_false]
        exact (hv v).map (fun v => (acc.1, v))
      exact ReadsAs.bind (ReadsAs.u8 _) hq

/-- **C14.** What `write_map` emits for a key and a value is read back as that pair; and any
sequence of key and value fields, in any order and number, is read as the last key and the last
value, with the defaults for what is missing. -/
theorem C14_map_roundtrip (T : Target) {K V : Type} (wk wv : Nat) (hwk : wk < 8) (hwv : wv < 8)
    (ek : K → Bytes) (ev : V → Bytes) (writeK : K → WProg) (writeV : V → WProg)
    (rk : Bytes → RM K) (rv : Bytes → RM V)
    (hek : ∀ k, Emits (writeK k) (ek k)) (hev : ∀ v, Emits (writeV v) (ev v))
    (hk : ∀ k, ReadsAs T rk (ek k) k) (hv : ∀ v, ReadsAs T rv (ev v) v) (k0 : K) (v0 : V) :
    (∀ k v, (ek k).length + (ev v).length + 2 < 2 ^ 32 → ∀ fuel, 2 < fuel →
      RoundTrip T
        (fun W _ => write_map (2 + (ek k).length + (ev v).length) (BitVec.ofNat 32 (8 + wk))
          (writeK k W) (BitVec.ofNat 32 (16 + wv)) (writeV v W))
        (fun b => read_map T fuel b k0 v0 (rk b) (rv b)) (k, v)) ∧
    (∀ fields : List (EntryField K V),
      (fields.flatMap (EntryField.enc wk wv ek ev)).length < 2 ^ 32 →
      ∀ fuel, fields.length < fuel →
      ReadsAs T (fun b => read_map T fuel b k0 v0 (rk b) (rv b))
        (delimited (fields.flatMap (EntryField.enc wk wv ek ev)))
        (fields.foldl EntryField.apply (k0, v0))) := by
  refine ⟨fun k v hl fuel hf => ?_, fun fields hl fuel hf =>
    reads_map wk wv hwk hwv ek ev rk rv hk hv fields k0 v0 fuel hf hl⟩
  refine ⟨delimited (([.key k, .val v] : List (EntryField K V)).flatMap (EntryField.enc wk wv ek ev)),
    ?_, ?_⟩
  · have hsz : (([.key k, .val v] : List (EntryField K V)).flatMap (EntryField.enc wk wv ek ev)).length
        = 2 + (ek k).length + (ev v).length := by
      simp [EntryField.enc]; omega
    have t1 := emits_tag (BitVec.ofNat 32 (8 + wk))
    have t2 := emits_tag (BitVec.ofNat 32 (16 + wv))
    rw [BitVec.toNat_ofNat, Nat.mod_eq_of_lt (by omega), varint_small (by omega)] at t1 t2
    refine (Emits.bind (emits_varint_ofNat (n := 2 + (ek k).length + (ev v).length) (by omega))
      (Emits.bind t1 (Emits.bind (hek k) (Emits.bind t2 (hev v))))).congr (fun W _ => rfl) ?_
    rw [delimited, hsz]
    simp [EntryField.enc]
  · refine reads_map wk wv hwk hwv ek ev rk rv hk hv [.key k, .val v] k0 v0 fuel (by simpa using hf) ?_
    simp [EntryField.enc]; omega

/-- **C14**, the error: a field other than 1 and 2 inside an entry is `Err(Map(number))`. -/
theorem C14_map_other_field (T : Target) {K V : Type} (k0 : K) (v0 : V) (rk : Bytes → RM K)
    (rv : Bytes → RM V) (fuel : Nat) (pre body suf : Bytes) (t : Byte)
    (hlen : (t :: body).length < 2 ^ 32)
    (htot : (pre ++ (delimited (t :: body) ++ suf)).length < 2 ^ T.usizeBits) (fin : Nat)
    (h1 : t >>> 3 ≠ 1#8) (h2 : t >>> 3 ≠ 2#8) (hf : 0 < fuel) :
    (read_map T fuel (pre ++ (delimited (t :: body) ++ suf)) k0 v0
      (rk (pre ++ (delimited (t :: body) ++ suf))) (rv (pre ++ (delimited (t :: body) ++ suf)))
      ⟨pre.length, fin⟩).1 = .err (.Map (t >>> 3)) := by
  obtain ⟨fuel, rfl⟩ : ∃ k, fuel = k + 1 := ⟨fuel - 1, by omega⟩
  have hv := reads_varint32 (T := T) (n := (t :: body).length) (by omega) pre (t :: body ++ suf)
    (pre.length + (varint (t :: body).length).length) (by simpa [delimited] using htot) (by omega)
  have hv' : read_varint32 (pre ++ (delimited (t :: body) ++ suf)) ⟨pre.length, fin⟩
      = (.ok (BitVec.ofNat 32 (t :: body).length),
        ⟨pre.length + (varint (t :: body).length).length, fin⟩) := by
    rw [read_varint32_scan, drop_pre, delimited, List.append_assoc,
      scan_varint _ _ _ (length_varint_64 (by omega))]
    simp [scanOut32, varintVal_varint]
  have e : (BitVec.ofNat 32 (t :: body).length).toNat = (t :: body).length := by
    rw [BitVec.toNat_ofNat, Nat.mod_eq_of_lt hlen]
  have hu := read_u8_cons (bytes := pre ++ (delimited (t :: body) ++ suf)) (b := t) (l := body ++ suf)
    (r := ⟨pre.length + (varint (t :: body).length).length,
      pre.length + (varint (t :: body).length).length + (t :: body).length⟩) (by
      rw [← List.drop_drop, drop_pre, delimited, List.append_assoc, drop_pre]; rfl)
  have hne : is_eof ⟨pre.length + (varint (t :: body).length).length,
      pre.length + (varint (t :: body).length).length + (t :: body).length⟩ = false := by
    simp only [is_eof, beq_eq_false_iff_ne, List.length_cons]; omega
  simp only [delimited, List.length_append] at htot
  simp only [read_map, read_len_varint, SM.bind_run, hv', read_len, SM.get_run, SM.lift_run, e,
    usizeAdd_ok (T := T) (a := pre.length + (varint (t :: body).length).length)
      (b := (t :: body).length) (by omega), SM.set_run, whileNotEof, hne, Bool.false_eq_true, if_false,
    hu, if_neg h1, if_neg h2, SM.throw_run]

example : (read_map Target.debug64 9 [0x04#8, 0x10#8, 0x07#8, 0x08#8, 0x05#8] 0#32 0#32
    (read_int32 [0x04#8, 0x10#8, 0x07#8, 0x08#8, 0x05#8])
    (read_int32 [0x04#8, 0x10#8, 0x07#8, 0x08#8, 0x05#8]) ⟨0, 5⟩).1 = .ok (5#32, 7#32) := by decide

end QP
