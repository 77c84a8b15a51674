import Verif.Proofs.GenGood
import Verif.Props.Safety
/-!
# C83: build profiles
-/

set_option linter.unusedVariables false

namespace QP
open BytesReader

/-- The target without overflow checks (release profile). -/
def Target.unchecked (T : Target) : Target := { T with overflowChecks := false }

section
variable {σ α β : Type} {T : Target}

/-- `p` panics, or `q` does the same. -/
def Follows {σ α : Type} (p q : SM σ α) : Prop := ∀ r, (p r).1 = .panic ∨ q r = p r

theorem Follows.refl (p : SM σ α) : Follows p p := fun _ => Or.inr rfl

theorem Follows.bind {p q : SM σ α} {f g : α → SM σ β} (h : Follows p q) (hf : ∀ a, Follows (f a) (g a)) :
    Follows (p >>= f) (q >>= g) := by
  intro r
  simp only [SM.bind_run]
  rcases h r with h1 | h1
  · rcases hp : p r with ⟨o, s⟩
    rw [hp] at h1
    simp only at h1
    subst h1
    exact Or.inl rfl
  · rw [h1]
    rcases hp : p r with ⟨o, s⟩
    cases o with
    | ok a => exact hf a s
    | _ => exact Or.inr rfl

theorem Follows.ite {c : Prop} [Decidable c] {p q p' q' : SM σ α} (h : Follows p q) (h' : Follows p' q') :
    Follows (if c then p else p') (if c then q else q') := by
  by_cases hc : c
  · rw [if_pos hc, if_pos hc]; exact h
  · rw [if_neg hc, if_neg hc]; exact h'

theorem Follows.usizeAdd (a b : Nat) : Follows (SM.lift (T.usizeAdd a b) : SM σ Nat) (SM.lift (T.unchecked.usizeAdd a b)) := by
  intro r
  have e : T.unchecked.usizeAdd a b = if a + b < 2 ^ T.usizeBits then .ok (a + b) else .ok ((a + b) % 2 ^ T.usizeBits) := rfl
  rw [e]
  simp only [SM.lift_run, Target.usizeAdd]
  split
  · exact Or.inr rfl
  · cases T.overflowChecks
    · exact Or.inr rfl
    · exact Or.inl rfl

theorem Follows.usizeSub (a b : Nat) : Follows (SM.lift (T.usizeSub a b) : SM σ Nat) (SM.lift (T.unchecked.usizeSub a b)) := by
  intro r
  simp only [SM.lift_run, Target.usizeSub, Target.unchecked]
  split
  · exact Or.inr rfl
  · cases T.overflowChecks
    · exact Or.inr rfl
    · exact Or.inl rfl

theorem follows_fixed (b : Bytes) (len : Nat) (f : Bytes → α) :
    Follows (read_fixed T b len f) (read_fixed T.unchecked b len f) :=
  Follows.bind (Follows.refl _) fun r => Follows.bind (Follows.usizeAdd _ _) fun _ => Follows.refl _

theorem follows_len {p q : RM α} (h : Follows p q) (len : Nat) : Follows (read_len T p len) (read_len T.unchecked q len) :=
  Follows.bind (Follows.refl _) fun r => Follows.bind (Follows.usizeAdd _ _) fun _ =>
    Follows.bind (Follows.refl _) fun _ => Follows.bind h fun _ => Follows.refl _

theorem follows_len_varint {p q : RM α} (h : Follows p q) (b : Bytes) :
    Follows (read_len_varint T b p) (read_len_varint T.unchecked b q) :=
  Follows.bind (Follows.refl _) fun n => follows_len h _

theorem follows_bytes (b : Bytes) : Follows (read_bytes T b) (read_bytes T.unchecked b) := follows_len_varint (Follows.refl _) b

theorem follows_string (b : Bytes) : Follows (read_string T b) (read_string T.unchecked b) := follows_len_varint (Follows.refl _) b

theorem follows_loop {A : Type} {s s' : A → RM A} (h : ∀ a, Follows (s a) (s' a)) :
    ∀ fuel acc, Follows (whileNotEof s fuel acc) (whileNotEof s' fuel acc)
  | 0, _ => Follows.refl _
  | fuel + 1, acc => Follows.bind (Follows.refl _) fun r => Follows.ite (Follows.refl _)
      (Follows.bind (h acc) fun a => follows_loop h fuel a)

theorem follows_packed {p q : RM α} (h : Follows p q) (b : Bytes) (fuel : Nat) :
    Follows (read_packed T fuel b p) (read_packed T.unchecked fuel b q) :=
  follows_len_varint (Follows.bind (follows_loop (fun _ => Follows.bind h fun _ => Follows.refl _) _ _) fun _ => Follows.refl _) b

theorem follows_map {K V : Type} {p q : RM K} {p' q' : RM V} (h : Follows p q) (h' : Follows p' q') (b : Bytes) (fuel : Nat)
    (k0 : K) (v0 : V) : Follows (read_map T fuel b k0 v0 p p') (read_map T.unchecked fuel b k0 v0 q q') :=
  follows_len_varint (follows_loop (fun _ => Follows.bind (Follows.refl _) fun _ =>
    Follows.ite (Follows.bind h fun _ => Follows.refl _) (Follows.ite (Follows.bind h' fun _ => Follows.refl _) (Follows.refl _))) _ _) b

theorem follows_packed_fixed (M : MemTy α) (b : Bytes) :
    Follows (read_packed_fixed T M b) (read_packed_fixed T.unchecked M b) :=
  Follows.bind (Follows.refl _) fun len => Follows.bind (Follows.bind (Follows.refl _) fun _ => Follows.usizeSub _ _) fun rem =>
    Follows.ite (Follows.refl _) (Follows.ite (Follows.refl _) (Follows.bind (Follows.refl _) fun r =>
      Follows.bind (Follows.usizeAdd _ _) fun _ => Follows.bind (Follows.refl _) fun _ =>
        Follows.bind (Follows.usizeAdd _ _) fun _ => Follows.refl _))

theorem follows_skip (n : Nat) : Follows (skip T n) (skip T.unchecked n) :=
  Follows.bind (Follows.refl _) fun r => Follows.bind (Follows.usizeSub _ _) fun _ =>
    Follows.ite (Follows.refl _) (Follows.bind (Follows.usizeAdd _ _) fun _ => Follows.refl _)

theorem follows_unknown (b : Bytes) (t : BitVec 32) : Follows (read_unknown T b t) (read_unknown T.unchecked b t) := by
  unfold read_unknown
  exact Follows.ite (Follows.refl _) (Follows.ite (follows_skip 8) (Follows.ite (follows_skip 4)
    (Follows.ite (Follows.bind (Follows.refl _) fun v => Follows.ite (follows_skip _) (Follows.refl _)) (Follows.refl _))))

end

namespace Gen
open QP.Pbrs

/-- The same schema and configuration, built without overflow checks. -/
def Ctx.unchecked (C : Ctx) : Ctx := { C with T := C.T.unchecked }

section
variable {C : Ctx} {rd rd' : MessageIndex → Bytes → RM RVal}

theorem follows_readTyp (h : ∀ m b, Follows (rd m b) (rd' m b)) (t : FieldType) (b : Bytes) :
    Follows (readTyp C rd t b) (readTyp C.unchecked rd' t b) := by
  have hm : ∀ {α : Type} {p q : RM α} (f : α → RVal), Follows p q → Follows (do let x ← p; pure (f x)) (do let x ← q; pure (f x)) :=
    fun f h => Follows.bind h fun _ => Follows.refl _
  cases t
  case fixed64 => exact hm RVal.w64 (follows_fixed b 8 leRead64)
  case sfixed64 => exact hm RVal.w64 (follows_fixed b 8 leRead64)
  case double => exact hm RVal.w64 (follows_fixed b 8 leRead64)
  case fixed32 => exact hm RVal.w32 (follows_fixed b 4 leRead32)
  case sfixed32 => exact hm RVal.w32 (follows_fixed b 4 leRead32)
  case float => exact hm RVal.w32 (follows_fixed b 4 leRead32)
  case stringCow => exact hm RVal.bytes (follows_string b)
  case string_ => exact hm RVal.bytes (follows_string b)
  case bytesCow => exact hm RVal.bytes (follows_bytes b)
  case bytes_ => exact hm RVal.bytes (follows_bytes b)
  case message m => exact follows_len_varint (h m b) b
  all_goals exact Follows.refl _

theorem follows_armRead (h : ∀ m b, Follows (rd m b) (rd' m b)) (fuel : Nat) (a : Arm) (b : Bytes) :
    Follows (armRead C rd fuel a b) (armRead C.unchecked rd' fuel a b) := by
  have hr := fun t => follows_readTyp (C := C) h t b
  unfold armRead
  refine Follows.ite (hr _) ?_
  cases a.field.frequency.generated
  · exact hr _
  · exact Follows.ite (Follows.ite (Follows.ite
      (Follows.bind (follows_packed_fixed (MemTy.int C.T 8) b) fun _ => Follows.refl _)
      (Follows.bind (follows_packed_fixed (MemTy.int C.T 4) b) fun _ => Follows.refl _))
      (Follows.bind (follows_packed (hr _) b fuel) fun _ => Follows.refl _)) (hr _)
  · cases a.field.typ
    case map k v =>
      have hd : ∀ t, typDefault C.unchecked t = typDefault C t := fun t => by cases t <;> rfl
      simp only [hd]
      exact Follows.bind (follows_map (hr _) (hr _) b fuel _ _) fun _ => Follows.refl _
    all_goals exact Follows.refl _

theorem follows_fromReader (n : Nat) : ∀ idx b, Follows (fromReader C n idx b) (fromReader C.unchecked n idx b) := by
  induction n with
  | zero => intro idx b; exact Follows.refl _
  | succ n ih =>
    intro idx b
    simp only [fromReader, Ctx.unchecked]
    cases hm : C.D.getMessage idx with
    | none => exact Follows.refl _
    | some m =>
      simp only
      refine Follows.ite (Follows.refl _) (Follows.bind (follows_loop (fun slots => ?_) _ _) fun _ => Follows.refl _)
      unfold msgStep
      refine Follows.bind (Follows.refl _) fun t => ?_
      simp only
      cases hf : (arms C.cfg m).find? (fun a => a.field.tag == t) with
      | none => exact Follows.bind (follows_unknown b t) fun _ => Follows.refl _
      | some a => exact Follows.bind (follows_armRead ih _ a b) fun _ => Follows.refl _

end

/-- **C83**, decoding: for every schema, message and input, from any reader state (and so also with
`deserialize_from_slice`): what a build with overflow checks does without panicking, a build without them
does exactly, value, error and reader state; so the release build panics only where the debug build does. -/
theorem C83_decode (C : Ctx) (idx : MessageIndex) (fuel : Nat) (b : Bytes) :
    (∀ r, (fromReader C fuel idx b r).1 ≠ .panic → fromReader C.unchecked fuel idx b r = fromReader C fuel idx b r) ∧
    (deserialize_from_slice C.T (fromReader C fuel idx) b ≠ .panic →
      deserialize_from_slice C.unchecked.T (fromReader C.unchecked fuel idx) b
        = deserialize_from_slice C.T (fromReader C fuel idx) b) := by
  refine ⟨fun r h => (follows_fromReader fuel idx b r).resolve_left h, fun h => ?_⟩
  have := (follows_len_varint (T := C.T) (follows_fromReader (C := C) fuel idx b) b (from_bytes b)).resolve_left h
  exact congrArg Prod.fst this

/-- **C83**, encoding: the generated `write_message` and `get_size` do the same in both. -/
theorem C83_encode (C : Ctx) (n : Nat) (idx : MessageIndex) : writeImpl C.unchecked n idx = writeImpl C n idx := by
  induction n generalizing idx with
  | zero => rfl
  | succ n ih =>
    have hw : writeImpl C.unchecked n = writeImpl C n := funext ih
    have hd : ∀ f, fieldDefault C.unchecked f = fieldDefault C f := fun f => by
      unfold fieldDefault
      cases f.default with
      | some s => rfl
      | none => simp only; cases f.typ <;> rfl
    have hs : sizeMember C.unchecked (writeImpl C n) = sizeMember C (writeImpl C n) := by
      funext mem v
      unfold sizeMember sizeField
      simp only [hd]; rfl
    have hm : ∀ {W : Type} [WriterBackend W], writeMember (W := W) C.unchecked (writeImpl C n) = writeMember C (writeImpl C n) := by
      intro W _
      funext mem v
      unfold writeMember writeField
      simp only [hd]; rfl
    simp only [writeImpl, hw, hs, hm]
    rfl

/-- Where the debug build panics the release build need not: six bytes (the underflow of C22) that the
release build rejects properly. -/
theorem C83_panic_refuted :
    let b : Bytes := [0x3a#8, 1#8, 0x08#8, 0#8, 0x65#8, 0#8]
    (fromReader (Example.ctx Target.debug64) 7 [0] b (from_bytes b)).1 = .panic ∧
    (fromReader (Example.ctx Target.debug64).unchecked 7 [0] b (from_bytes b)).1 = .err .UnexpectedEndOfBuffer := by
  exact ⟨rfl, rfl⟩

/-- The hypothesis of **C83** is met: a message that decodes in the debug build. -/
example : (fromReader (Example.ctx Target.debug64) 4 [0] [0x08#8, 5#8] ⟨0, 2⟩).1 ≠ .panic := by
  intro h
  exact absurd h (by rw [show (fromReader (Example.ctx Target.debug64) 4 [0] [0x08#8, 5#8] ⟨0, 2⟩).1 = .ok (.struct
    [.w32 5, .bytes [], .vec [], .pf32 .noDataYet, .vec [], .map [], .none, .w32 0, .w32 0, .none]) from rfl]; intro h; cases h)

end Gen
end QP
