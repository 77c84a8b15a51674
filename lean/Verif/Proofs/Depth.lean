import Verif.Spec.Depth
import Verif.Proofs.Decode
import Verif.Proofs.Resolve
import Verif.Spec.Resolved
import Mathlib.Data.List.Perm.Subperm
/-!
# Decoding with a bounded stack
-/

set_option linter.unusedVariables false

namespace QP
open BytesReader Spec

section
variable {σ α β : Type} {T : Target}

/-- `p` runs out of fuel, or `q` does the same. -/
def Waits {σ α : Type} (p q : SM σ α) : Prop := ∀ r, (p r).1 = .timeout ∨ q r = p r

theorem Waits.refl (p : SM σ α) : Waits p p := fun _ => Or.inr rfl

theorem Waits.trans {p q s : SM σ α} (h : Waits p q) (h' : Waits q s) : Waits p s := fun r => by
  rcases h r with h1 | h1
  · exact Or.inl h1
  · rcases h' r with h2 | h2
    · left; rw [← h1]; exact h2
    · right; rw [h2, h1]

theorem Waits.bind {p q : SM σ α} {f g : α → SM σ β} (h : Waits p q) (hf : ∀ a, Waits (f a) (g a)) :
    Waits (p >>= f) (q >>= g) := by
  intro r
  simp only [SM.bind_run]
  rcases h r with h1 | h1
  · rcases hp : p r with ⟨o, s⟩
    rw [hp] at h1
    simp only at h1
    subst h1
    exact Or.inl rfl
  · rw [h1]
    rcases hp : p r with ⟨o, s⟩
    cases o with
    | ok a => exact hf a s
    | _ => exact Or.inr rfl

theorem Waits.ite {c : Prop} [Decidable c] {p q p' q' : SM σ α} (h : Waits p q) (h' : Waits p' q') :
    Waits (if c then p else p') (if c then q else q') := by
  by_cases hc : c
  · rw [if_pos hc, if_pos hc]; exact h
  · rw [if_neg hc, if_neg hc]; exact h'

theorem waits_len {p q : RM α} (h : Waits p q) (len : Nat) : Waits (read_len T p len) (read_len T q len) :=
  Waits.bind (Waits.refl _) fun r => Waits.bind (Waits.refl _) fun _ =>
    Waits.bind (Waits.refl _) fun _ => Waits.bind h fun _ => Waits.refl _

theorem waits_len_varint {p q : RM α} (h : Waits p q) (b : Bytes) :
    Waits (read_len_varint T b p) (read_len_varint T b q) :=
  Waits.bind (Waits.refl _) fun n => waits_len h _

theorem waits_loop {A : Type} {s s' : A → RM A} (h : ∀ a, Waits (s a) (s' a)) :
    ∀ f f' acc, f ≤ f' → Waits (whileNotEof s f acc) (whileNotEof s' f' acc)
  | 0, _, _, _ => fun r => Or.inl rfl
  | f + 1, 0, _, hl => absurd hl (by omega)
  | f + 1, f' + 1, acc, hl => Waits.bind (Waits.refl _) fun r => Waits.ite (Waits.refl _)
      (Waits.bind (h acc) fun a => waits_loop h f f' a (by omega))

theorem waits_packed {p q : RM α} (h : Waits p q) (b : Bytes) {f f' : Nat} (hl : f ≤ f') :
    Waits (read_packed T f b p) (read_packed T f' b q) :=
  waits_len_varint (Waits.bind (waits_loop (fun _ => Waits.bind h fun _ => Waits.refl _) _ _ _ hl) fun _ => Waits.refl _) b

theorem waits_map {K V : Type} {p q : RM K} {p' q' : RM V} (h : Waits p q) (h' : Waits p' q') (b : Bytes) {f f' : Nat} (hl : f ≤ f')
    (k0 : K) (v0 : V) : Waits (read_map T f b k0 v0 p p') (read_map T f' b k0 v0 q q') :=
  waits_len_varint (waits_loop (fun _ => Waits.bind (Waits.refl _) fun _ =>
    Waits.ite (Waits.bind h fun _ => Waits.refl _) (Waits.ite (Waits.bind h' fun _ => Waits.refl _) (Waits.refl _))) _ _ _ hl) b

/-- On `x` the operation `p` runs out of fuel. -/
def Starves (T : Target) (p : Bytes → RM α) (x : Bytes) : Prop :=
  ∀ pre suf fin, (pre ++ (x ++ suf)).length < 2 ^ T.usizeBits → pre.length + x.length ≤ fin →
    (p (pre ++ (x ++ suf)) ⟨pre.length, fin⟩).1 = .timeout

/-- The same, when the limit is at the end of `x`. -/
def StarvesAll (T : Target) (p : Bytes → RM α) (x : Bytes) : Prop :=
  ∀ pre suf, (pre ++ (x ++ suf)).length < 2 ^ T.usizeBits →
    (p (pre ++ (x ++ suf)) ⟨pre.length, pre.length + x.length⟩).1 = .timeout

theorem bind_timeout {p : SM σ α} {f : α → SM σ β} {r : σ} (h : (p r).1 = .timeout) : ((p >>= f) r).1 = .timeout := by
  simp only [SM.bind_run]
  rcases hp : p r with ⟨o, s⟩
  rw [hp] at h
  simp only at h
  subst h
  rfl

theorem Starves.first {p : Bytes → RM α} {x : Bytes} (h : Starves T p x) (q : α → Bytes → RM β) :
    Starves T (fun b => p b >>= fun a => q a b) x := fun pre suf fin h1 h2 => bind_timeout (h pre suf fin h1 h2)

theorem StarvesAll.first {p : Bytes → RM α} {x : Bytes} (h : StarvesAll T p x) (q : α → Bytes → RM β) :
    StarvesAll T (fun b => p b >>= fun a => q a b) x := fun pre suf h1 => bind_timeout (h pre suf h1)

theorem Starves.then {p : Bytes → RM α} {q : α → Bytes → RM β} {x y : Bytes} {a : α} (hp : ReadsAs T p x a) (hq : Starves T (q a) y) :
    Starves T (fun b => p b >>= fun a => q a b) (x ++ y) := by
  intro pre suf fin hlen hfin
  have h1 := hp pre (y ++ suf) fin (by simpa using hlen) (by simp at hfin; omega)
  have h2 := hq (pre ++ x) suf fin (by simpa [Nat.add_assoc] using hlen)
    (by simp at hfin ⊢; omega)
  simp only [List.append_assoc, List.length_append] at h1 h2 ⊢
  rw [SM.bind_ok h1, h2]

theorem Starves.delimited {p : Bytes → RM α} {x : Bytes} (h : StarvesAll T p x) (hx : x.length < 2 ^ 32) :
    Starves T (fun b => read_len_varint T b (p b)) (varint x.length ++ x) := by
  refine Starves.then (q := fun len b => read_len T (p b) len.toNat) (reads_varint32 (n := x.length) (by omega)) ?_
  intro pre suf fin hl hf
  have e : (BitVec.ofNat 32 x.length).toNat = x.length := by rw [BitVec.toNat_ofNat, Nat.mod_eq_of_lt hx]
  simp only [e]
  unfold read_len
  simp only [SM.bind_run, SM.get_run]
  have hu : T.usizeAdd pre.length x.length = .ok (pre.length + x.length) := by
    unfold Target.usizeAdd
    rw [if_pos (by simp at hl; omega)]
  simp only [hu, SM.bind_run, SM.lift_run, SM.set_run]
  have h1 := h pre suf hl
  rcases hp : p (pre ++ (x ++ suf)) ⟨pre.length, pre.length + x.length⟩ with ⟨o, s⟩
  rw [hp] at h1
  simp only at h1
  subst h1
  rfl

theorem StarvesAll.loop {A : Type} {step : Bytes → A → RM A} {x : Bytes} (hx : x ≠ []) {acc : A}
    (h : Starves T (fun b => step b acc) x) (fuel : Nat) : StarvesAll T (fun b => whileNotEof (step b) fuel acc) x := by
  intro pre suf hl
  cases fuel with
  | zero => rfl
  | succ fuel =>
    have hne : is_eof ⟨pre.length, pre.length + x.length⟩ = false := by
      have : x.length ≠ 0 := by simpa using hx
      simp only [is_eof]
      simp; omega
    simp only [whileNotEof, SM.bind_run, SM.get_run, hne, Bool.false_eq_true, if_false]
    exact bind_timeout (f := fun acc => whileNotEof (step (pre ++ (x ++ suf))) fuel acc) (h pre suf _ hl (Nat.le_refl _))

end

namespace Gen
open QP.Pbrs Spec

section
variable {C : Ctx} {rd rd' : MessageIndex → Bytes → RM RVal}

theorem waits_readTyp (t : FieldType) (b : Bytes) (h : ∀ m, t = .message m → Waits (rd m b) (rd' m b)) :
    Waits (readTyp C rd t b) (readTyp C rd' t b) := by
  cases t
  case message m => exact waits_len_varint (h m rfl) b
  all_goals exact Waits.refl _

theorem waits_armRead (a : Arm) (b : Bytes) {f f' : Nat} (hl : f ≤ f') (h : ∀ m, Inside a.field.typ m → Waits (rd m b) (rd' m b)) :
    Waits (armRead C rd f a b) (armRead C rd' f' a b) := by
  have ht := waits_readTyp (C := C) a.field.typ b fun m hm => h m (Or.inl hm)
  unfold armRead
  refine Waits.ite ht ?_
  cases a.field.frequency.generated with
  | singular => exact ht
  | arrayLike =>
    refine Waits.ite (Waits.ite (Waits.refl _) ?_) ht
    exact Waits.bind (waits_packed ht b hl) fun _ => Waits.refl _
  | map =>
    cases hty : a.field.typ
    case map k v =>
      rw [hty] at h
      exact Waits.bind (waits_map (waits_readTyp k b fun m hm => h m (Or.inr ⟨k, v, rfl, Or.inl hm⟩))
        (waits_readTyp v b fun m hm => h m (Or.inr ⟨k, v, rfl, Or.inr hm⟩)) b hl _ _) fun _ => Waits.refl _
    all_goals exact Waits.refl _

theorem waits_msgStep (as : List Arm) (b : Bytes) {f f' : Nat} (hl : f ≤ f')
    (h : ∀ a ∈ as, ∀ m, Inside a.field.typ m → Waits (rd m b) (rd' m b)) (slots : List RVal) :
    Waits (msgStep C rd f as b slots) (msgStep C rd' f' as b slots) := by
  unfold msgStep
  refine Waits.bind (Waits.refl _) fun t => ?_
  cases hf : as.find? (fun a => a.field.tag == t) with
  | none => exact Waits.refl _
  | some a => exact Waits.bind (waits_armRead a b hl (h a (List.mem_of_find?_eq_some hf))) fun _ => Waits.refl _

end

theorem readDeep_none {C : Ctx} {F d : Nat} {idx : MessageIndex} (hm : C.D.getMessage idx = Option.none) (b : Bytes) :
    readDeep C F (d + 1) idx b = SM.lift .panic := by
  unfold readDeep; rw [hm]

theorem readDeep_unit {C : Ctx} {F d : Nat} {idx : MessageIndex} {m : Message} (hm : C.D.getMessage idx = Option.some m)
    (hu : m.isUnit = true) (b : Bytes) : readDeep C F (d + 1) idx b = (do read_to_end; pure (C.dflt idx)) := by
  unfold readDeep; rw [hm]; simp only [hu, if_true]

theorem readDeep_msg {C : Ctx} {F d : Nat} {idx : MessageIndex} {m : Message} (hm : C.D.getMessage idx = Option.some m)
    (hu : m.isUnit = false) (b : Bytes) : readDeep C F (d + 1) idx b =
      (do let slots ← whileNotEof (msgStep C (readDeep C F d) F (arms C.cfg m) b) F (C.dflt idx).slots
          pure (.struct slots)) := by
  rw [readDeep.eq_def]; simp only [hm, hu, Bool.false_eq_true, if_false]

/-- A deeper stack and more iterations only help. -/
theorem waits_deep (C : Ctx) {F F' : Nat} (hF : F ≤ F') : ∀ d d' idx b, d ≤ d' → Waits (readDeep C F d idx b) (readDeep C F' d' idx b)
  | 0, _, _, _, _ => fun r => Or.inl rfl
  | d + 1, 0, _, _, h => absurd h (by omega)
  | d + 1, d' + 1, idx, b, h => by
    cases hm : C.D.getMessage idx with
    | none => rw [readDeep_none hm, readDeep_none hm]; exact Waits.refl _
    | some m =>
      cases hu : m.isUnit
      · rw [readDeep_msg hm hu, readDeep_msg hm hu]
        exact Waits.bind (waits_loop (fun slots => waits_msgStep _ b hF (fun a _ j _ => waits_deep C hF d d' j b (by omega)) slots) _ _ _ hF)
          fun _ => Waits.refl _
      · rw [readDeep_unit hm hu, readDeep_unit hm hu]; exact Waits.refl _

/-- `fromReader` does what the decoder with a bounded stack does … -/
theorem waits_fromReader (C : Ctx) {F : Nat} : ∀ d n idx b, F + d ≤ n → Waits (readDeep C F d idx b) (fromReader C n idx b)
  | 0, _, _, _, _ => fun r => Or.inl rfl
  | d + 1, 0, _, _, h => absurd h (by omega)
  | d + 1, n + 1, idx, b, h => by
    cases hm : C.D.getMessage idx with
    | none => rw [readDeep_none hm, fromReader_none n hm]; exact Waits.refl _
    | some m =>
      cases hu : m.isUnit
      · rw [readDeep_msg hm hu, fromReader_msg n hm hu]
        exact Waits.bind (waits_loop (fun slots => waits_msgStep _ b (by omega) (fun a _ j _ => waits_fromReader C d n j b (by omega)) slots)
          _ _ _ (by omega)) fun _ => Waits.refl _
      · rw [readDeep_unit hm hu, fromReader_unit n hm hu]; exact Waits.refl _

/-- … and the other way round. -/
theorem fromReader_waits (C : Ctx) {F : Nat} : ∀ n d idx b, n ≤ F → n ≤ d → Waits (fromReader C n idx b) (readDeep C F d idx b)
  | 0, _, _, _, _, _ => fun r => Or.inl rfl
  | n + 1, 0, _, _, _, h => absurd h (by omega)
  | n + 1, d + 1, idx, b, hF, h => by
    cases hm : C.D.getMessage idx with
    | none => rw [readDeep_none hm, fromReader_none n hm]; exact Waits.refl _
    | some m =>
      cases hu : m.isUnit
      · rw [readDeep_msg hm hu, fromReader_msg n hm hu]
        exact Waits.bind (waits_loop (fun slots => waits_msgStep _ b (by omega) (fun a _ j _ => fromReader_waits C n d j b (by omega) (by omega)) slots)
          _ _ _ (by omega)) fun _ => Waits.refl _
      · rw [readDeep_unit hm hu, fromReader_unit n hm hu]; exact Waits.refl _

section
variable {C : Ctx} {rd rd' : MessageIndex → Bytes → RM RVal}

theorem readTyp_congr (t : FieldType) (b : Bytes) (h : ∀ m, t = .message m → rd m b = rd' m b) :
    readTyp C rd t b = readTyp C rd' t b := by
  cases t
  case message m => simp only [readTyp, h m rfl]
  all_goals rfl

theorem armRead_congr (a : Arm) (b : Bytes) (f : Nat) (h : ∀ m, Inside a.field.typ m → rd m b = rd' m b) :
    armRead C rd f a b = armRead C rd' f a b := by
  have ht := readTyp_congr (C := C) a.field.typ b fun m hm => h m (Or.inl hm)
  unfold armRead
  rw [ht]
  cases hty : a.field.typ
  case map k v =>
    rw [hty] at h
    simp only [readTyp_congr (C := C) k b fun m hm => h m (Or.inr ⟨k, v, rfl, Or.inl hm⟩),
      readTyp_congr (C := C) v b fun m hm => h m (Or.inr ⟨k, v, rfl, Or.inr hm⟩)]
  all_goals rfl

theorem msgStep_congr (as : List Arm) (b : Bytes) (f : Nat)
    (h : ∀ a ∈ as, ∀ m, Inside a.field.typ m → rd m b = rd' m b) : msgStep C rd f as b = msgStep C rd' f as b := by
  funext slots
  unfold msgStep
  congr 1
  funext t
  cases hf : as.find? (fun a => a.field.tag == t) with
  | none => rfl
  | some a => simp only [armRead_congr (C := C) a b f (h a (List.mem_of_find?_eq_some hf))]

end

/-- The messages of a schema. -/
theorem count_bound {C : Ctx} {l : List MessageIndex} (hn : l.Nodup) (hl : ∀ i ∈ l, ∃ m, C.D.getMessage i = Option.some m) :
    l.length ≤ messageCount C := by
  have : l ⊆ (Message.preorderAll [] 0 C.D.messages).map (·.1) := by
    intro i hi
    obtain ⟨m, hm⟩ := hl i hi
    exact List.mem_map.mpr ⟨(i, m), (mem_preorder_file C.D i m).mpr hm, rfl⟩
  have := (hn.subperm this).length_le
  simpa [messageCount] using this

theorem mentions_exists {C : Ctx} (hC : Resolved C) {i j : MessageIndex} (h : Mentions C i j) : ∃ m, C.D.getMessage j = Option.some m := by
  obtain ⟨m, a, hm, ha, h⟩ := h
  have h1 := (hC i m hm a ha).1
  rcases h with h | ⟨k, v, h, hk⟩
  · rw [h] at h1; exact h1
  · rw [h] at h1
    rcases hk with hk | hk
    · have := h1.1; rw [hk] at this; exact this
    · have := h1.2.1; rw [hk] at this; exact this

theorem Recursive.of_mentions {C : Ctx} {i j : MessageIndex} (h : Mentions C i j) (hr : Recursive C j) : Recursive C i := by
  obtain ⟨c, k, h1, h2⟩ := hr
  exact ⟨c, k, (Path.edge h).trans h1, h2⟩

theorem path_cases {α : Type} {E : α → α → Prop} {a c : α} (h : Path E a c) : a = c ∨ ∃ b, E a b ∧ Path E b c := by
  induction h with
  | refl => exact Or.inl rfl
  | step h e ih =>
    rcases ih with rfl | ⟨b, h1, h2⟩
    · exact Or.inr ⟨_, e, Path.refl _⟩
    · exact Or.inr ⟨b, h1, h2.step e⟩

theorem Recursive.next {C : Ctx} {i : MessageIndex} (h : Recursive C i) : ∃ j, Mentions C i j ∧ Recursive C j := by
  obtain ⟨c, k, h1, h2, h3⟩ := h
  rcases path_cases h1 with rfl | ⟨b, h4, h5⟩
  · exact ⟨k, h2, i, k, h3, h2, h3⟩
  · exact ⟨b, h4, c, k, h5, h2, h3⟩

/-- A message that cannot contain itself needs only so many calls. -/
theorem deep_stable {C : Ctx} (hC : Resolved C) (F : Nat) (b : Bytes) : ∀ (d : Nat) (idx : MessageIndex) (l : List MessageIndex),
    (idx :: l).Nodup → (∀ i ∈ idx :: l, ∃ m, C.D.getMessage i = Option.some m) →
    (∀ x ∈ l, ∃ j, Mentions C x j ∧ Path (Mentions C) j idx) → ¬ Recursive C idx → messageCount C ≤ l.length + d →
    readDeep C F d idx b = readDeep C F (d + 1) idx b
  | 0, idx, l, hn, hl, hp, hr, hd => by
    have := count_bound hn hl
    simp only [List.length_cons] at this
    omega
  | d + 1, idx, l, hn, hl, hp, hr, hd => by
    obtain ⟨m, hm⟩ := hl idx List.mem_cons_self
    cases hu : m.isUnit
    · rw [readDeep_msg hm hu, readDeep_msg hm hu]
      rw [msgStep_congr (arms C.cfg m) b F]
      intro a ha j hj
      have hmen : Mentions C idx j := ⟨m, a, hm, ha, hj⟩
      refine deep_stable hC F b d j (idx :: l) ?_ ?_ ?_ (fun h => hr (h.of_mentions hmen)) (by simp only [List.length_cons]; omega)
      · refine List.nodup_cons.mpr ⟨?_, hn⟩
        intro hin
        rcases List.mem_cons.mp hin with rfl | hin
        · exact hr ⟨j, j, Path.refl _, hmen, Path.refl _⟩
        · obtain ⟨k, h1, h2⟩ := hp j hin
          exact hr ⟨idx, j, Path.refl _, hmen, (Path.edge h1).trans h2⟩
      · intro i hi
        rcases List.mem_cons.mp hi with rfl | hi
        · exact mentions_exists hC hmen
        · exact hl i hi
      · intro x hx
        rcases List.mem_cons.mp hx with rfl | hx
        · exact ⟨j, hmen, Path.refl _⟩
        · obtain ⟨k, h1, h2⟩ := hp x hx
          exact ⟨k, h1, h2.step hmen⟩
    · rw [readDeep_unit hm hu, readDeep_unit hm hu]

section
variable {C : Ctx} {rd : MessageIndex → Bytes → RM RVal} {sub : MessageIndex → Bytes → RVal → Prop}

theorem mem_memberOk {cfg : Config} {m : Message} (hok : MessageOk cfg m) {a : Arm} (ha : a ∈ arms cfg m) (hc : a.choice = Option.none) :
    FieldOk a.field := by
  obtain ⟨mem, h1, h2⟩ := mem_arms.mp ha
  have hm := hok.members mem (List.mem_of_getElem? h1)
  cases mem with
  | field f =>
    simp only [memberArms, List.mem_singleton] at h2
    rw [h2]; exact hm
  | oneof fs =>
    simp only [memberArms, List.mem_map] at h2
    obtain ⟨p, _, e⟩ := h2
    rw [← e] at hc
    cases hc

theorem delimited_varint {x : Bytes} (hx : x.length < 2 ^ 32) : Delimited (varint x.length ++ x) x :=
  ⟨varint x.length, IsVarint.of_canonical (by omega), by rw [varintVal_varint]; exact Nat.mod_eq_of_lt hx, rfl⟩

theorem varint_le5 {n : Nat} (h : n < 2 ^ 32) : (varint n).length ≤ 5 := (length_varint_le n 4).mpr (by omega)

theorem payload_message {m : Message} (hok : MessageOk C.cfg m) {a : Arm} (ha : a ∈ arms C.cfg m) {j : MessageIndex}
    (ht : a.field.typ = .message j) {x : Bytes} (hx : x.length < 2 ^ 32) :
    (∀ rd F, StarvesAll C.T (rd j) x → Starves C.T (armRead C rd F a) (varint x.length ++ x)) ∧
    ∀ sub v, sub j x v → ∃ w, DecArm C sub a (varint x.length ++ x) w := by
  have h1 : ∀ rd F, armRead C rd F a = readTyp C rd (.message j) := by
    intro rd F
    funext b
    unfold armRead
    by_cases h0 : (a.choice.isSome || a.field.boxed) = true
    · rw [if_pos h0, ht]
    · rw [if_neg h0]
      have hf := mem_memberOk hok ha (by cases h : a.choice <;> simp_all)
      have hm : a.field.frequency.isMap = false := by rw [hf.map, ht]; rfl
      unfold Frequency.generated
      rw [if_neg (by simp [hm])]
      by_cases hrep : a.field.frequency.isRepeated = true
      · have hp : a.field.isPacked ≠ true := fun hp => by have := hf.packed hrep hp; rw [ht] at this; cases this
        simp only [hrep, if_true, if_neg hp, ht]
      · simp only [if_neg hrep, ht]
  have h2 : ∀ sub p w, DecTyp C sub (.message j) p w → DecArm C sub a p w := by
    intro sub p w h
    unfold DecArm
    by_cases h0 : (a.choice.isSome || a.field.boxed) = true
    · rw [if_pos h0, ht]; exact h
    · rw [if_neg h0]
      have hf := mem_memberOk hok ha (by cases h : a.choice <;> simp_all)
      have hm : a.field.frequency.isMap = false := by rw [hf.map, ht]; rfl
      unfold Frequency.generated
      rw [if_neg (by simp [hm])]
      by_cases hrep : a.field.frequency.isRepeated = true
      · have hp : a.field.isPacked ≠ true := fun hp => by have := hf.packed hrep hp; rw [ht] at this; cases this
        simp only [hrep, if_true, if_neg hp, ht]; exact h
      · simp only [if_neg hrep, ht]; exact h
  refine ⟨fun rd F h => ?_, fun sub v h => ⟨v, h2 sub _ _ ⟨x, delimited_varint hx, h⟩⟩⟩
  rw [h1]
  exact Starves.delimited (p := rd j) h hx

theorem reads_u8_one (t : Byte) : ReadsAs C.T BytesReader.read_u8 [t] t := by
  intro pre suf fin hl hf
  rw [BytesReader.read_u8_cons (b := t) (l := suf) (by rw [drop_pre]; rfl)]
  rfl

theorem payload_map {m : Message} (hok : MessageOk C.cfg m) {a : Arm} (ha : a ∈ arms C.cfg m) (hc : a.choice = Option.none) {j : MessageIndex}
    {k v : FieldType} (ht : a.field.typ = .map k v) (hj : k = .message j ∨ v = .message j) {x : Bytes} (hx : x.length + 6 < 2 ^ 32) :
    ∃ p, p.length ≤ x.length + 11 ∧
    (∀ rd F, StarvesAll C.T (rd j) x → Starves C.T (armRead C rd F a) p) ∧
    ∀ sub y, sub j x y → ∃ w, DecArm C sub a p w := by
  have hf := mem_memberOk hok ha hc
  have hm : a.field.frequency.isMap = true := by rw [hf.map, ht]; rfl
  have hg : a.field.frequency.generated = .map := by unfold Frequency.generated; rw [if_pos hm]
  have hb : a.field.boxed = false := by
    cases h : a.field.boxed
    · rfl
    · have := hf.boxed h
      revert this hm
      cases a.field.frequency <;> simp [Frequency.isMap, Frequency.isOptional]
  have h0 : ¬ (a.choice.isSome || a.field.boxed) = true := by simp [hc, hb]
  have hl5 := varint_le5 (n := x.length) (by omega)
  -- the entry: one byte, then the message
  have entry : ∀ t : Byte, (t.toNat / 8 = 1 ∧ k = .message j) ∨ (t.toNat / 8 = 2 ∧ v = .message j) →
      ∃ p, p.length ≤ x.length + 11 ∧
      (∀ rd F, StarvesAll C.T (rd j) x → Starves C.T (armRead C rd F a) p) ∧
      ∀ sub y, sub j x y → ∃ w, DecArm C sub a p w := by
    intro t h
    have he : ([t] ++ (varint x.length ++ x)).length < 2 ^ 32 := by simp only [List.length_append, List.length_singleton]; omega
    have hle := varint_le5 he
    refine ⟨varint ([t] ++ (varint x.length ++ x)).length ++ ([t] ++ (varint x.length ++ x)), ?_, fun rd F hs => ?_, fun sub y hy => ?_⟩
    · rw [List.length_append]
      simp only [List.length_append, List.length_singleton] at hle ⊢
      omega
    · have e : armRead C rd F a = fun b => (do
          let kv ← BytesReader.read_map C.T F b (typDefault C k) (typDefault C v) (readTyp C rd k b) (readTyp C rd v b)
          pure (.map [kv])) := by
        funext b
        unfold armRead
        rw [if_neg h0, hg, ht]
      rw [e]
      refine Starves.first (q := fun kv _ => pure (RVal.map [kv])) ?_
      refine Starves.delimited (p := fun b => BytesReader.whileNotEof (fun (kv : RVal × RVal) => do
        let t ← BytesReader.read_u8 b
        let n := t >>> 3
        if n = 1#8 then do
          let k ← readTyp C rd k b
          pure (k, kv.2)
        else if n = 2#8 then do
          let v ← readTyp C rd v b
          pure (kv.1, v)
        else SM.throw (.Map n)) F (typDefault C k, typDefault C v)) ?_ he
      refine StarvesAll.loop (by simp) (step := fun b (kv : RVal × RVal) => do
        let t ← BytesReader.read_u8 b
        let n := t >>> 3
        if n = 1#8 then do
          let k ← readTyp C rd k b
          pure (k, kv.2)
        else if n = 2#8 then do
          let v ← readTyp C rd v b
          pure (kv.1, v)
        else SM.throw (.Map n)) ?_ F
      refine Starves.then (T := C.T) (p := BytesReader.read_u8) (q := fun t b => (do
        let n := t >>> 3
        if n = 1#8 then do
          let k ← readTyp C rd k b
          pure (k, typDefault C v)
        else if n = 2#8 then do
          let v ← readTyp C rd v b
          pure (typDefault C k, v)
        else SM.throw (.Map n))) (reads_u8_one (C := C) t) ?_
      rcases h with ⟨h1, h2⟩ | ⟨h1, h2⟩
      · simp only [(tag_shift t 1 (by omega)).mpr h1, if_true, h2]
        exact Starves.first (Starves.delimited (p := rd j) hs (by omega)) _
      · simp only [(tag_shift t 2 (by omega)).mpr h1, if_true, h2]
        simp only [show ¬ (2#8 = 1#8) by decide, if_false]
        exact Starves.first (Starves.delimited (p := rd j) hs (by omega)) _
    · unfold DecArm
      simp only [if_neg h0, hg]
      have hd : ∀ t, t = FieldType.message j → DecTyp C sub t (varint x.length ++ x) y :=
        fun t e => by rw [e]; exact ⟨x, delimited_varint (by omega), hy⟩
      have hpart : ∃ u, DecPart C sub k v ([t] ++ (varint x.length ++ x)) u := by
        rcases h with ⟨h1, h2⟩ | ⟨h1, h2⟩
        · exact ⟨(false, y), t, _, rfl, Or.inl ⟨h1, rfl, hd _ h2⟩⟩
        · exact ⟨(true, y), t, _, rfl, Or.inr ⟨h1, rfl, hd _ h2⟩⟩
      obtain ⟨u, hu⟩ := hpart
      exact ⟨_, k, v, _, [u], ht, delimited_varint he, by have := Parses.cons hu Parses.nil; rwa [List.append_nil] at this, rfl⟩
  rcases hj with hj | hj
  · exact entry 0x0a#8 (Or.inl ⟨by decide, hj⟩)
  · exact entry 0x12#8 (Or.inr ⟨by decide, hj⟩)

theorem payload_inside (hC : Resolved C) {i : MessageIndex} {m : Message} (hm : C.D.getMessage i = Option.some m) (hok : MessageOk C.cfg m)
    {a : Arm} (ha : a ∈ arms C.cfg m) {j : MessageIndex} (ht : Inside a.field.typ j) {x : Bytes} (hx : x.length + 6 < 2 ^ 32) :
    ∃ p, p.length ≤ x.length + 11 ∧
    (∀ rd F, StarvesAll C.T (rd j) x → Starves C.T (armRead C rd F a) p) ∧
    ∀ sub y, sub j x y → ∃ w, DecArm C sub a p w := by
  rcases ht with ht | ⟨k, v, ht, hj⟩
  · have := varint_le5 (n := x.length) (by omega)
    exact ⟨_, by rw [List.length_append]; omega, payload_message hok ha ht (by omega)⟩
  · have h1 := (hC i m hm a ha).1
    rw [ht] at h1
    exact payload_map hok ha h1.2.2 ht hj hx

end

theorem fieldTag_lt32 {cfg : Config} {m : Message} (hok : MessageOk cfg m) {a : Arm} (ha : a ∈ arms cfg m) : fieldTag a.field < 2 ^ 32 := by
  rw [← fieldTag_eq (arm_number hok ha)]; exact BitVec.isLt _

/-- For every depth there is an input nested that deep. -/
theorem deep_input {C : Ctx} (hC : Resolved C) (hS : SchemaOk C) : ∀ (N : Nat) (i : MessageIndex), Recursive C i → 16 * N < 2 ^ 32 →
    ∃ b v, b.length ≤ 16 * N ∧ DecMsg C (N + 1) i b v ∧ ∀ F, StarvesAll C.T (readDeep C F N i) b
  | 0, i, hr, hN => by
    obtain ⟨j, ⟨m, a, hm, ha, _⟩, _⟩ := hr.next
    refine ⟨[], ?_⟩
    cases hu : m.isUnit
    · exact ⟨_, by simp, ⟨m, hm, by rw [hu]; exact ⟨_, ⟨[], Parses.nil, rfl⟩, rfl⟩⟩, fun F pre suf _ => rfl⟩
    · exact ⟨_, by simp, ⟨m, hm, by rw [hu]; rfl⟩, fun F pre suf _ => rfl⟩
  | N + 1, i, hr, hN => by
    obtain ⟨j, ⟨m, a, hm, ha, hin⟩, hrj⟩ := hr.next
    obtain ⟨x, v, hxl, hxd, hxs⟩ := deep_input hC hS N j hrj (by omega)
    have hok := hS i m hm
    obtain ⟨p, hpl, hps, hpd⟩ := payload_inside hC hm hok ha hin (x := x) (by omega)
    obtain ⟨w, hw⟩ := hpd (DecMsg C (N + 1)) v hxd
    have hu : m.isUnit = false := by
      cases hu : m.isUnit
      · rfl
      · obtain ⟨mem, h1, _⟩ := mem_arms.mp ha
        rw [isUnit_members hu] at h1
        simp at h1
    have h32 := fieldTag_lt32 hok ha
    have ht5 := varint_le5 h32
    have hv : IsVarint (varint (fieldTag a.field)) := IsVarint.of_canonical (by omega)
    have hvv : varintVal (varint (fieldTag a.field)) % 2 ^ 32 = fieldTag a.field := by
      rw [varintVal_varint]; exact Nat.mod_eq_of_lt h32
    refine ⟨varint (fieldTag a.field) ++ p, .struct (slotsAfter (C.dflt i).slots [Option.some (a, w)]), by rw [List.length_append]; omega,
      ⟨m, hm, ?_⟩, fun F => ?_⟩
    · rw [hu]
      refine ⟨_, ⟨[Option.some (a, w)], ?_, rfl⟩, rfl⟩
      have hrec : Record C (DecMsg C (N + 1)) m (varint (fieldTag a.field) ++ p) (Option.some (a, w)) :=
        ⟨_, p, hv, rfl, Or.inl ⟨a, ha, w, hvv.symm, hw, rfl⟩⟩
      have := Parses.cons hrec Parses.nil
      rwa [List.append_nil] at this
    · have e : readDeep C F (N + 1) i = fun b => (do
          let slots ← BytesReader.whileNotEof (msgStep C (readDeep C F N) F (arms C.cfg m) b) F (C.dflt i).slots
          pure (.struct slots)) := by funext b; exact readDeep_msg hm hu b
      rw [e]
      refine StarvesAll.first (q := fun slots _ => pure (RVal.struct slots)) ?_
      refine StarvesAll.loop (by simp [IsVarint.ne_nil hv]) (step := fun b => msgStep C (readDeep C F N) F (arms C.cfg m) b) ?_ F
      have hfind := find_arm hok ha ((fieldTag_lt hok ha (varintVal (varint (fieldTag a.field)))).mp hvv.symm)
      unfold msgStep
      refine Starves.then (q := fun t b =>
        (match (arms C.cfg m).find? (fun a => a.field.tag == t) with
          | Option.some a => do
            let v ← armRead C (readDeep C F N) F a b
            pure (setSlot a.slot (fun old => armApply a old v) (C.dflt i).slots)
          | Option.none => do
            BytesReader.read_unknown C.T b t
            pure (C.dflt i).slots)) (reads_isVarint32 hv) ?_
      simp only [hfind]
      exact Starves.first (hps (readDeep C F N) F (hxs F)) _

end Gen
end QP
