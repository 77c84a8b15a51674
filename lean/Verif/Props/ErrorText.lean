import Verif.Model.ErrorText
import Verif.Props.Errors
set_option linter.unusedVariables false
/-!
# Errors keep what they say (C119)
-/

namespace QP.Fault
open QP.Pbrs

/-- What becomes of an error that is passed on, any number of times, by functions that return `io::Result` and functions that return the
`Result` of this crate, with `?`. -/
inductive PassedOn : Error → Error → Prop
  | here (e : Error) : PassedOn e e
  | on {e e' : Error} : PassedOn e e' → PassedOn e (.ofIo e'.toIo)

/-- **C119.** An error that becomes an `io::Error` says the same. -/
theorem C119_text (S : Std) (e : Error) : e.toIo.display S = e.display S := by
  cases e <;> rfl

/-- **C119.** So does an `io::Error` that becomes an error of this crate, and it is the same again when it becomes an `io::Error`. -/
theorem C119_back (S : Std) (x : IoError) : (Error.ofIo x).display S = x.display S ∧ (Error.ofIo x).toIo = x := ⟨rfl, rfl⟩

/-- **C119.** However often an error is passed on, its text and its kind stay, and it is wrapped at most once. -/
theorem C119_passed (S : Std) {e e' : Error} (h : PassedOn e e') :
    e'.display S = e.display S ∧ e'.toIo.kind S = e.toIo.kind S ∧ (e' = e ∨ e' = .Io e.toIo) := by
  induction h with
  | here => exact ⟨rfl, rfl, .inl rfl⟩
  | on _ ih =>
    obtain ⟨h1, h2, h3⟩ := ih
    refine ⟨(C119_text S _).trans h1, h2, .inr ?_⟩
    rcases h3 with rfl | rfl <;> rfl

/-- **C119.** The error can be told from the `io::Error` that it became. -/
theorem C119_kept {e e' : Error} (h : e.toIo = e'.toIo) (hi : ∀ x, e ≠ .Io x) (hi' : ∀ x, e' ≠ .Io x) : e = e' := by
  cases e <;> cases e' <;> simp_all [Error.toIo]

/-- **C119.** `InvalidData` means that a text was not UTF-8, for errors of this crate. -/
theorem C119_kind (S : Std) (e : Error) (hi : ∀ x, e ≠ .Io x) : e.toIo.kind S = .InvalidData ↔ e.bare = .Utf8 := by
  cases e <;> simp_all [Error.toIo, IoError.kind, Error.bare]

theorem digits_inj {m n : Nat} (h : Nat.toDigits 10 m = Nat.toDigits 10 n) : m = n := by
  rw [← Nat.ofDigitChars_ten_toDigits (n := m), h, Nat.ofDigitChars_ten_toDigits]

theorem digits_no (n : Nat) {c : Char} (h : c.isDigit = false) : c ∉ Nat.toDigits 10 n := by
  intro hc
  have := Nat.isDigit_of_mem_toDigits (by omega) (by omega) hc
  rw [h] at this
  cases this

theorem split_at {c : Char} {a b r s : Str} (ha : c ∉ a) (hb : c ∉ b) (h : a ++ c :: r = b ++ c :: s) : a = b ∧ r = s := by
  induction a generalizing b with
  | nil =>
    cases b with
    | nil => cases h; exact ⟨rfl, rfl⟩
    | cons y b => cases h; exact absurd List.mem_cons_self hb
  | cons x a ih =>
    cases b with
    | nil => cases h; exact absurd List.mem_cons_self ha
    | cons y b =>
      simp only [List.cons_append, List.cons.injEq] at h
      obtain ⟨rfl, h⟩ := h
      obtain ⟨rfl, e⟩ := ih (fun hx => ha (List.mem_cons_of_mem _ hx)) (fun hx => hb (List.mem_cons_of_mem _ hx)) h
      exact ⟨rfl, e⟩

theorem utf8_display_inj {e e' : Utf8Error} (h : e.display = e'.display) : e = e' := by
  obtain ⟨v, n⟩ := e
  obtain ⟨v', n'⟩ := e'
  cases n with
  | none =>
    cases n' with
    | none =>
      have := digits_inj (List.append_cancel_left h)
      cases this
      rfl
    | some n' => simp [Utf8Error.display] at h
  | some n =>
    cases n' with
    | none => simp [Utf8Error.display] at h
    | some n' =>
      simp only [Utf8Error.display, List.append_assoc] at h
      have h := List.append_cancel_left h
      obtain ⟨e1, e2⟩ := split_at (c := ' ') (digits_no _ rfl) (digits_no _ rfl) h
      have e3 := digits_inj (List.append_cancel_left (as := c! "bytes from index ") e2)
      cases digits_inj e1
      cases e3
      rfl

/-- **C119.** Errors of this crate (that are not of the system) are told apart by their texts: kind and payload. -/
theorem C119_distinct_partial (S : Std) {e e' : Error} (h : e.display S = e'.display S) (hi : ∀ x, e ≠ .Io x) (hi' : ∀ x, e' ≠ .Io x) : e = e' := by
  cases e with
  | Io x => exact absurd rfl (hi x)
  | Utf8 u =>
    cases e' with
    | Io x => exact absurd rfl (hi' x)
    | Utf8 u' => cases utf8_display_inj h; rfl
    | _ => obtain ⟨v, _ | n⟩ := u <;> simp [Error.display, Utf8Error.display] at h
  | Deprecated f =>
    cases e' with
    | Io x => exact absurd rfl (hi' x)
    | Utf8 u => obtain ⟨v, _ | n⟩ := u <;> simp [Error.display, Utf8Error.display] at h
    | Deprecated f' =>
      have h : c! "Feature '" ++ f ++ c! "' has been deprecated" = c! "Feature '" ++ f' ++ c! "' has been deprecated" := h
      cases List.append_cancel_left (List.append_cancel_right h)
      rfl
    | _ => simp [Error.display] at h
  | UnknownWireType t =>
    cases e' with
    | Io x => exact absurd rfl (hi' x)
    | Utf8 u => obtain ⟨v, _ | n⟩ := u <;> simp [Error.display, Utf8Error.display] at h
    | UnknownWireType t' =>
      have h : c! "Unknown wire type '" ++ Nat.toDigits 10 t.toNat ++ c! "', must be less than 6" =
        c! "Unknown wire type '" ++ Nat.toDigits 10 t'.toNat ++ c! "', must be less than 6" := h
      cases BitVec.eq_of_toNat_eq (digits_inj (List.append_cancel_left (List.append_cancel_right h)))
      rfl
    | _ => simp [Error.display] at h
  | Map t =>
    cases e' with
    | Io x => exact absurd rfl (hi' x)
    | Utf8 u => obtain ⟨v, _ | n⟩ := u <;> simp [Error.display, Utf8Error.display] at h
    | Map t' =>
      have h : c! "Unexpected map tag: '" ++ Nat.toDigits 10 t.toNat ++ c! "', expecting 1 or 2" =
        c! "Unexpected map tag: '" ++ Nat.toDigits 10 t'.toNat ++ c! "', expecting 1 or 2" := h
      cases BitVec.eq_of_toNat_eq (digits_inj (List.append_cancel_left (List.append_cancel_right h)))
      rfl
    | _ => simp [Error.display] at h
  | Message m =>
    cases e' with
    | Io x => exact absurd rfl (hi' x)
    | Utf8 u => obtain ⟨v, _ | n⟩ := u <;> simp [Error.display, Utf8Error.display] at h
    | Message m' => cases List.append_cancel_left h; rfl
    | _ => simp [Error.display] at h
  | _ =>
    cases e' with
    | Io x => exact absurd rfl (hi' x)
    | Utf8 u => obtain ⟨v, _ | n⟩ := u <;> simp [Error.display, Utf8Error.display] at h
    | _ => first | rfl | simp [Error.display] at h

/-- C119 is false of errors of the system: what was passed on by a function of `io` has the text of the error itself. -/
theorem C119_refuted_io (S : Std) : ∃ e e' : Error, e.display S = e'.display S ∧ e ≠ e' :=
  ⟨.Varint, .ofIo (Error.toIo .Varint), rfl, by simp [Error.ofIo]⟩

/-- **C119.** Following the sources ends: each is a smaller error than the one before. -/
theorem C119_sources (e : Error) (f : Nat → Cause) (h0 : e.source = some (f 0)) (h : ∀ n, (f n).source = some (f (n + 1))) : False := by
  have size : ∀ c c' : Cause, c.source = some c' → sizeOf c' < sizeOf c := by
    intro c c' hc
    cases c with
    | utf8 _ => cases hc
    | io x =>
      cases x with
      | custom k i =>
        cases i with
        | error e =>
          cases e with
          | Io y => cases hc; simp; omega
          | Utf8 y => cases hc; simp; omega
          | _ => cases hc
        | _ => cases hc
      | _ => cases hc
  have : ∀ n, sizeOf (f n) + n ≤ sizeOf (f 0) := by
    intro n
    induction n with
    | zero => exact Nat.le_refl _
    | succ n ih =>
      have := size _ _ (h n)
      omega
  have := this (sizeOf (f 0) + 1)
  omega

/-- **C119.** Two errors of the decoder (of any two inputs, schemas and builds) with the same text are the same error, and neither is one of the
system; and what the texts about wire types and map tags say is so. -/
theorem C119_decoder (S : Std) (C C' : Gen.Ctx) (hU : 32 ≤ C.T.usizeBits) (hU' : 32 ≤ C'.T.usizeBits) (bytes bytes' : Bytes)
    (hL : bytes.length < 2 ^ C.T.usizeBits) (hL' : bytes'.length < 2 ^ C'.T.usizeBits) (fuel fuel' : Nat) (idx idx' : MessageIndex)
    (r r₁ r' r₁' : BytesReader) (e e' : Error) (h : Gen.fromReader C fuel idx bytes r = (.err e.bare, r₁))
    (h' : Gen.fromReader C' fuel' idx' bytes' r' = (.err e'.bare, r₁')) :
    (e.display S = e'.display S → e = e') ∧
    (∀ t, e.display S = c! "Unknown wire type '" ++ t ++ c! "', must be less than 6" → t = c! "6" ∨ t = c! "7") ∧
    (∀ t, e.display S = c! "Unexpected map tag: '" ++ t ++ c! "', expecting 1 or 2" → t ≠ c! "1" ∧ t ≠ c! "2") := by
  have hn := Gen.C117_never C hU bytes hL fuel idx r r₁ e.bare h
  have hn' := Gen.C117_never C' hU' bytes' hL' fuel' idx' r' r₁' e'.bare h'
  have hr := Gen.C117_reason C hU bytes hL fuel idx r r₁ e.bare h
  refine ⟨fun hd => C119_distinct_partial S hd (fun x hx => hn.1 (by rw [hx]; rfl)) (fun x hx => hn'.1 (by rw [hx]; rfl)), fun t ht => ?_, fun t ht => ?_⟩
  · cases e with
    | Io x => exact absurd rfl hn.1
    | Utf8 u => obtain ⟨v, _ | n⟩ := u <;> simp [Error.display, Utf8Error.display] at ht
    | UnknownWireType b =>
      have ht : c! "Unknown wire type '" ++ Nat.toDigits 10 b.toNat ++ c! "', must be less than 6" = c! "Unknown wire type '" ++ t ++ c! "', must be less than 6" := ht
      have ht := List.append_cancel_left (List.append_cancel_right ht)
      obtain ⟨n, _, _, hb⟩ := hr
      rcases hb with hb | hb <;> rw [hb] at ht
      · exact .inl ht.symm
      · exact .inr ht.symm
    | _ => simp [Error.display] at ht
  · cases e with
    | Io x => exact absurd rfl hn.1
    | Utf8 u => obtain ⟨v, _ | n⟩ := u <;> simp [Error.display, Utf8Error.display] at ht
    | Map b =>
      have ht : c! "Unexpected map tag: '" ++ Nat.toDigits 10 b.toNat ++ c! "', expecting 1 or 2" = c! "Unexpected map tag: '" ++ t ++ c! "', expecting 1 or 2" := ht
      have ht := List.append_cancel_left (List.append_cancel_right ht)
      obtain ⟨_, _, _, _, _, h1, h2⟩ := hr
      subst ht
      exact ⟨fun hx => h1 (digits_inj (n := 1) hx), fun hx => h2 (digits_inj (n := 2) hx)⟩
    | _ => simp [Error.display] at ht

/-- Errors with payloads, their texts and where they lead, and two inputs that the decoder of the example rejects with them (C119_decoder applies). -/
theorem C119_example (S : Std) :
    (Error.Map 3).display S = c! "Unexpected map tag: '3', expecting 1 or 2" ∧
    (Error.ofIo (Error.Utf8 ⟨3, some 1⟩).toIo).display S = c! "invalid utf-8 sequence of 1 bytes from index 3" ∧
    PassedOn (.Map 3) (.ofIo (Error.ofIo (Error.Map 3).toIo).toIo) ∧
    (Error.ofIo (.custom .Other (.error (.Utf8 ⟨0, none⟩)))).source.bind Cause.source = some (.utf8 ⟨0, none⟩) ∧
    (Gen.fromReader (Gen.Example.ctx Target.debug64) 9 [0] [0x32, 0x02, 0x18, 0x00] ⟨0, 4⟩).1 = .err (Error.Map 3).bare ∧
    (Gen.fromReader (Gen.Example.ctx Target.debug64) 9 [0] [0x7f] ⟨0, 1⟩).1 = .err (Error.UnknownWireType 7).bare :=
  ⟨rfl, rfl, .on (.on (.here _)), rfl, rfl, rfl⟩

end QP.Fault
