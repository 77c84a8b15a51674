import Verif.Spec.Defaults
import Verif.Model.Pbrs.Passes
/-!
# Plain constants mean the same in Rust (proofs)
-/

set_option linter.unusedVariables false
set_option linter.unusedSimpArgs false

namespace QP.Rust
open QP.Pbrs QP.Gen Spec

theorem stripEnd_append (suf d : Str) : stripEnd suf (d ++ suf) = some d := by
  unfold stripEnd
  have : (d ++ suf).length - suf.length = d.length := by rw [List.length_append]; omega
  rw [this, List.drop_left, List.take_left, if_pos rfl]

theorem between_append (a b d : Str) : between a b (a ++ d ++ b) = some d := by
  unfold between
  rw [List.append_assoc, List.take_left, List.drop_left, if_pos rfl, stripEnd_append]

theorem digitVal_underscore (base : Nat) : digitVal base '_' = none := rfl
theorem digitVal_minus (base : Nat) : digitVal base '-' = none := rfl

theorem digitVal_lt {base : Nat} {c : Char} {n : Nat} (h : digitVal base c = some n) : n < base := by
  unfold digitVal at h
  obtain ⟨d, _, h⟩ := Option.bind_eq_some_iff.mp h
  split at h
  · cases h; assumption
  · cases h

theorem digit_ne {base : Nat} {c x : Char} (h : (digitVal base c).isSome = true) (hx : digitVal base x = none) : c ≠ x := by
  rintro rfl
  rw [hx] at h
  cases h

theorem rustDigits_eq (base : Nat) : ∀ (s : Str) (n k : Nat), (∀ c ∈ s, (digitVal base c).isSome = true) →
    rustDigits base n k s = some (s.foldl (fun n c => n * base + (digitVal base c).getD 0) n, k + s.length)
  | [], n, k, _ => rfl
  | c :: s, n, k, h => by
    have hc := h c (List.mem_cons_self ..)
    obtain ⟨d, hd⟩ := Option.isSome_iff_exists.mp hc
    rw [rustDigits, if_neg (digit_ne hc (digitVal_underscore base)), hd, Option.bind_some,
      rustDigits_eq base s _ _ (fun c hc => h c (List.mem_cons_of_mem _ hc))]
    simp only [List.foldl_cons, hd, Option.getD_some, List.length_cons]
    congr 2
    omega

theorem rustNumber_eq {base : Nat} {s : Str} (h : Digits base s) : rustNumber base s = some (digitsValue base s) := by
  unfold rustNumber
  rw [rustDigits_eq base s 0 0 h.2, Option.bind_some, if_neg]
  · rfl
  · have := List.length_pos_iff.mpr h.1
    simp only [Nat.zero_add]
    omega

theorem startsWithDigit_of {s : Str} (h : Digits 10 s) (r : Str) : startsWithDigit (s ++ r) = true := by
  obtain ⟨h1, h2⟩ := h
  cases s with
  | nil => exact absurd rfl h1
  | cons c s => exact h2 c (List.mem_cons_self ..)

theorem rustNat_decimal {s : Str} (h : startsWithDigit s = true) (h0 : s = ['0'] ∨ s.head? ≠ some '0') : rustNat s = rustNumber 10 s := by
  rcases h0 with rfl | h0
  · rfl
  · unfold rustNat
    split
    · exact absurd rfl h0
    · exact absurd rfl h0
    · exact absurd rfl h0
    · rw [if_pos h]

theorem rustNat_eq {s : Str} {n : Nat} (h : IntText s n) (hp : plainNat s = true) : rustNat s = some n := by
  cases h with
  | zero => rfl
  | decimal s hd h0 =>
    rw [rustNat_decimal (by simpa using startsWithDigit_of hd []) (Or.inr h0), rustNumber_eq hd]
  | octal s hd =>
    exfalso
    obtain ⟨h1, h2⟩ := hd
    cases s with
    | nil => exact h1 rfl
    | cons c s =>
      have hc : c ≠ 'x' := digit_ne (h2 c (List.mem_cons_self ..)) rfl
      unfold plainNat at hp
      split at hp
      · simp_all
      · simp_all
      · cases hp
      · rename_i h; exact h _ rfl
  | hex x s hx hd =>
    rcases hx with rfl | rfl
    · exact rustNumber_eq hd
    · cases hp

theorem intText_head {s : Str} {n : Nat} (h : IntText s n) : stripMinus s = (false, s) := by
  have : s.head? ≠ some '-' := by
    cases h with
    | zero => decide
    | decimal s hd h0 =>
      obtain ⟨h1, h2⟩ := hd
      cases s with
      | nil => exact absurd rfl h1
      | cons c s => exact fun h => digit_ne (h2 c (List.mem_cons_self ..)) (digitVal_minus 10) (Option.some.inj h)
    | octal s hd => exact fun h => by cases h
    | hex x s hx hd => exact fun h => by cases h
  unfold stripMinus
  split
  · exact absurd rfl this
  · rfl

theorem signedLit_eq {d suf : Str} {i : Int} {w : Nat} (h : SignedText d i) (hp : plainNat (stripMinus d).2 = true) (h1 : -2 ^ (w - 1) ≤ i)
    (h2 : i < 2 ^ (w - 1)) : signedLit w suf (d ++ suf) = some i := by
  have hpow : ((2 ^ (w - 1) : Nat) : Int) = 2 ^ (w - 1) := by simp
  unfold signedLit
  rw [stripEnd_append, Option.bind_some]
  cases h with
  | plus s n hn =>
    rw [intText_head hn] at hp ⊢
    rw [rustNat_eq hn hp, Option.bind_some, if_neg (by simp), if_pos (by omega)]
  | minus s n hn =>
    rw [show stripMinus ('-' :: s) = (true, s) from rfl] at hp ⊢
    rw [rustNat_eq hn hp, Option.bind_some, if_pos rfl, if_pos (by omega)]

theorem unsignedLit_eq {d suf : Str} {n : Nat} {w : Nat} (h : IntText d n) (hp : plainNat d = true) (h2 : n < 2 ^ w) :
    unsignedLit w suf (d ++ suf) = some n := by
  unfold unsignedLit
  rw [stripEnd_append, Option.bind_some, rustNat_eq h hp, Option.bind_some, if_pos h2]

/-! ## Floating point -/

theorem rustExponent_eq {x : Str} {e : Int} (h : x = [] ∧ e = 0 ∨ ExpText x e) : rustExponent x = some e := by
  rcases h with ⟨rfl, rfl⟩ | h
  · rfl
  · cases h with
    | plus c sg s hc hsg hd =>
      unfold rustExponent
      simp only
      rw [if_pos hc]
      rcases hsg with rfl | rfl
      · obtain ⟨h1, h2⟩ := hd
        cases s with
        | nil => exact absurd rfl h1
        | cons a s =>
          have ha := h2 a (List.mem_cons_self ..)
          have hm : a ≠ '-' := digit_ne ha rfl
          have hp : a ≠ '+' := digit_ne ha rfl
          simp only [List.nil_append]
          split
          · rename_i heq; exact absurd (List.cons.inj heq).1 hm
          · rename_i heq; exact absurd (List.cons.inj heq).1 hp
          · rw [rustNumber_eq ⟨h1, h2⟩]; rfl
      · show (rustNumber 10 s).map _ = _
        rw [rustNumber_eq hd]; rfl
    | minus c s hc hd =>
      unfold rustExponent
      simp only
      rw [if_pos hc, rustNumber_eq hd]; rfl

theorem exp_head {x : Str} {e : Int} (h : ExpText x e) : ∃ c r, x = c :: r ∧ (c = 'e' ∨ c = 'E') := by
  cases h with
  | plus c sg s hc _ _ => exact ⟨c, _, rfl, hc⟩
  | minus c s hc _ => exact ⟨c, _, rfl, hc⟩

/-- Digits end where something else begins. -/
theorem span_digits (p : Char → Bool) {a r : Str} (ha : ∀ c ∈ a, p c = true) (hr : ∀ c ∈ r.head?, p c = false) :
    (a ++ r).takeWhile p = a ∧ (a ++ r).dropWhile p = r := by
  induction a with
  | nil =>
    cases r with
    | nil => exact ⟨rfl, rfl⟩
    | cons c r =>
      have := hr c rfl
      simp [List.takeWhile_cons, List.dropWhile_cons, this]
  | cons c a ih =>
    obtain ⟨i1, i2⟩ := ih (fun x hx => ha x (List.mem_cons_of_mem _ hx))
    have := ha c (List.mem_cons_self ..)
    simp [List.takeWhile_cons, List.dropWhile_cons, this, i1, i2]

theorem underscore_of {a : Str} (ha : ∀ c ∈ a, (digitVal 10 c).isSome = true) : ∀ c ∈ a, digitOrUnderscore c = true := by
  intro c hc
  simp [digitOrUnderscore, ha c hc]

theorem exp_stop {x : Str} {e : Int} (h : x = [] ∧ e = 0 ∨ ExpText x e) : ∀ c ∈ x.head?, digitOrUnderscore c = false := by
  rcases h with ⟨rfl, _⟩ | h
  · intro c hc; cases hc
  · obtain ⟨c, r, rfl, hc⟩ := exp_head h
    intro c' hc'
    cases hc'
    rcases hc with rfl | rfl <;> rfl

theorem exp_stop' {x : Str} {e : Int} (h : x = [] ∧ e = 0 ∨ ExpText x e) : ∀ c ∈ x.head?, (digitVal 10 c).isSome = false := by
  rcases h with ⟨rfl, _⟩ | h
  · intro c hc; cases hc
  · obtain ⟨c, r, rfl, hc⟩ := exp_head h
    intro c' hc'
    cases hc'
    rcases hc with rfl | rfl <;> rfl

theorem rustDecimal_exp {a x : Str} {e : Int} (ha : Digits 10 a) (hx : x = [] ∧ e = 0 ∨ ExpText x e) :
    rustDecimal (a ++ x) = some (digitsValue 10 a, e) := by
  obtain ⟨s1, s2⟩ := span_digits digitOrUnderscore (underscore_of ha.2) (exp_stop hx)
  unfold rustDecimal
  rw [if_pos (startsWithDigit_of ha x), s1, s2, rustDigits_eq 10 a 0 0 ha.2, Option.bind_some]
  have hne : ∀ r, x ≠ '.' :: r := by
    rintro r rfl
    rcases hx with ⟨h, _⟩ | h
    · cases h
    · obtain ⟨c, r', h, hc⟩ := exp_head h
      cases h
      rcases hc with h | h <;> cases h
  split
  · exact absurd rfl (hne _)
  · rw [rustExponent_eq hx]; rfl

theorem rustDecimal_point {a b x : Str} {e : Int} (ha : Digits 10 a) (hb : Digits 10 b) (hx : x = [] ∧ e = 0 ∨ ExpText x e) :
    rustDecimal (a ++ '.' :: (b ++ x)) = some (digitsValue 10 (a ++ b), e - b.length) := by
  obtain ⟨s1, s2⟩ := span_digits digitOrUnderscore (r := '.' :: (b ++ x)) (underscore_of ha.2) (by intro c hc; cases hc; rfl)
  obtain ⟨t1, t2⟩ := span_digits digitOrUnderscore (underscore_of hb.2) (exp_stop hx)
  unfold rustDecimal
  rw [if_pos (startsWithDigit_of ha _), s1, s2, rustDigits_eq 10 a 0 0 ha.2, Option.bind_some]
  simp only
  rw [if_pos (startsWithDigit_of hb _), t1, t2, rustDigits_eq 10 b _ 0 hb.2, Option.bind_some, rustExponent_eq hx]
  simp [digitsValue, List.foldl_append]

theorem not_digit_dot : (digitVal 10 '.').isSome = false := rfl

theorem rustDecimal_eq {s : Str} {m : Nat} {e : Int} (h : RealText s m e) (hp : plainReal s = true) : rustDecimal s = some (m, e) := by
  unfold plainReal at hp
  simp only [Bool.and_eq_true] at hp
  obtain ⟨hp1, hp2⟩ := hp
  cases h with
  | int s n hn =>
    cases hn with
    | zero => rfl
    | decimal s hd h0 => simpa using rustDecimal_exp hd (Or.inl ⟨rfl, rfl⟩)
    | octal s hd =>
      exfalso
      have hall : ∀ c ∈ '0' :: s, (digitVal 10 c).isSome = true := by
        intro c hc
        rcases List.mem_cons.mp hc with rfl | hc
        · rfl
        · have h8 := hd.2 c hc
          unfold digitVal at h8 ⊢
          revert h8
          generalize (if '0' ≤ c ∧ c ≤ '9' then some (c.toNat - 48)
            else if 'a' ≤ c ∧ c ≤ 'f' then some (c.toNat - 87)
            else if 'A' ≤ c ∧ c ≤ 'F' then some (c.toNat - 55) else none) = o
          cases o with
          | none => simp
          | some n =>
            simp only [Option.bind_some]
            by_cases h : n < 8
            · simp [h, show n < 10 by omega]
            · simp [h]
      have := (span_digits (fun c => (digitVal 10 c).isSome) (r := []) hall (by intro c hc; cases hc)).2
      rw [List.append_nil] at this
      rw [this] at hp2
      simp only [List.head?_cons, ne_eq, not_true_eq_false, or_false, decide_eq_true_eq] at hp2
      exact hd.1 (List.cons.inj hp2).2
    | hex x s hx hd =>
      exfalso
      have : ('0' :: x :: s).dropWhile (fun c => (digitVal 10 c).isSome) = x :: s := by
        rcases hx with rfl | rfl <;> rfl
      rw [this] at hp2
      rcases hx with rfl | rfl <;> (have hp2 : false = true := hp2; cases hp2)
  | exp a x e ha hx => exact rustDecimal_exp ha (Or.inr hx)
  | point a b x e hne hd hx =>
    have hda : ∀ c ∈ a, (digitVal 10 c).isSome = true := fun c hc => hd c (List.mem_append_left _ hc)
    have hdb : ∀ c ∈ b, (digitVal 10 c).isSome = true := fun c hc => hd c (List.mem_append_right _ hc)
    have ha : a ≠ [] := by
      rintro rfl
      exact absurd hp1 (by simp [startsWithDigit, digitVal])
    rw [List.append_assoc, List.cons_append] at hp2 ⊢
    obtain ⟨_, s2⟩ := span_digits (fun c => (digitVal 10 c).isSome) (r := '.' :: (b ++ x)) hda (by intro c hc; cases hc; rfl)
    rw [s2] at hp2
    simp only at hp2
    have hb : b ≠ [] := by
      rintro rfl
      rcases hx with ⟨rfl, _⟩ | hx
      · cases hp2
      · obtain ⟨c, r, rfl, hc⟩ := exp_head hx
        rcases hc with rfl | rfl <;> cases hp2
    exact rustDecimal_point ⟨ha, hda⟩ ⟨hb, hdb⟩ hx

theorem real_head {s : Str} {m : Nat} {e : Int} (h : RealText s m e) : stripMinus s = (false, s) := by
  have hh : ∀ c ∈ s.head?, c ≠ '-' := by
    cases h with
    | int s n hn =>
      intro c hc hcm
      subst hcm
      have := intText_head hn
      cases s with
      | nil => cases hc
      | cons c s => cases hc; cases this
    | exp a x e ha hx =>
      obtain ⟨h1, h2⟩ := ha
      cases a with
      | nil => exact absurd rfl h1
      | cons c a =>
        intro c' hc'
        cases hc'
        exact digit_ne (h2 c (List.mem_cons_self ..)) (digitVal_minus 10)
    | point a b x e hne hd hx =>
      cases a with
      | nil => intro c hc; cases hc; decide
      | cons c a =>
        intro c' hc'
        cases hc'
        exact digit_ne (hd c (List.mem_cons_self ..)) (digitVal_minus 10)
  unfold stripMinus
  split
  · exact absurd rfl (hh _ rfl)
  · rfl

theorem floatLit_eq {d suf : Str} {g : Bool} {m : Nat} {e : Int} (h : SignedReal d g m e) (hp : plainReal (stripMinus d).2 = true) :
    floatLit suf (d ++ suf) = some (g, m, e) := by
  unfold floatLit
  rw [stripEnd_append, Option.bind_some]
  cases h with
  | plus s m e h =>
    rw [real_head h] at hp ⊢
    rw [rustDecimal_eq h hp]; rfl
  | minus s m e h =>
    rw [show stripMinus ('-' :: s) = (true, s) from rfl] at hp ⊢
    rw [rustDecimal_eq h hp]; rfl

/-! ## Strings -/

theorem hex_byte {a b : Char} (ha : (digitVal 16 a).isSome = true) (hb : (digitVal 16 b).isSome = true) :
    ∃ x y, digitVal 16 a = some x ∧ digitVal 16 b = some y ∧ hexByte a b = some (digitsValue 16 [a, b]) ∧ x * 16 + y = digitsValue 16 [a, b] := by
  obtain ⟨x, hx⟩ := Option.isSome_iff_exists.mp ha
  obtain ⟨y, hy⟩ := Option.isSome_iff_exists.mp hb
  refine ⟨x, y, hx, hy, ?_, ?_⟩ <;> simp [hexByte, digitsValue, hx, hy]

theorem quoted_eq (text : Bool) (s : Str) (h : plainText text s = true) :
    ∃ b, unescape s = some b ∧ quoted text s = some b ∧ (text = true → ValidUtf8 b) := by
  induction s using plainText.induct with
  | case1 => exact ⟨[], rfl, rfl, fun _ => ⟨[], by simp, rfl⟩⟩
  | case2 a b s ih =>
    simp only [plainText, Bool.and_eq_true, Bool.or_eq_true, Bool.not_eq_true', decide_eq_true_eq] at h
    obtain ⟨⟨⟨ha, hb⟩, hv⟩, hs⟩ := h
    obtain ⟨r, h1, h2, h3⟩ := ih hs
    obtain ⟨x, y, hx, hy, hh, he⟩ := hex_byte ha hb
    refine ⟨BitVec.ofNat 8 (digitsValue 16 [a, b]) :: r, ?_, ?_, ?_⟩
    · simp [unescape, hx, hy, h1, he]
    · simp only [quoted, hh, Option.bind_some]
      rw [if_neg]
      · rw [h2]; rfl
      · rintro ⟨ht, hn⟩
        rcases hv with hv | hv
        · rw [ht] at hv; cases hv
        · omega
    · intro ht
      obtain ⟨cs, hc1, hc2⟩ := h3 ht
      have hlt : digitsValue 16 [a, b] < 128 := by
        rcases hv with hv | hv
        · rw [ht] at hv; cases hv
        · exact hv
      refine ⟨digitsValue 16 [a, b] :: cs, ?_, ?_⟩
      · intro c hc
        rcases List.mem_cons.mp hc with rfl | hc
        · exact Or.inl (by omega)
        · exact hc1 c hc
      · rw [List.flatMap_cons, ← hc2, utf8Char, if_pos hlt]; rfl
  | case3 c s hx ih =>
    rw [plainText] at h
    · simp only [Bool.and_eq_true] at h
      obtain ⟨hc, hs⟩ := h
      obtain ⟨r, h1, h2, h3⟩ := ih hs
      have key : ∀ n : Nat, n < 128 → unescape ('\\' :: c :: s) = some (BitVec.ofNat 8 n :: r) → quoted text ('\\' :: c :: s) = some (BitVec.ofNat 8 n :: r) →
          ∃ b, unescape ('\\' :: c :: s) = some b ∧ quoted text ('\\' :: c :: s) = some b ∧ (text = true → ValidUtf8 b) := by
        intro n hn e1 e2
        refine ⟨_, e1, e2, fun ht => ?_⟩
        obtain ⟨cs, hc1, hc2⟩ := h3 ht
        refine ⟨n :: cs, ?_, ?_⟩
        · intro c hc
          rcases List.mem_cons.mp hc with rfl | hc
          · exact Or.inl (by omega)
          · exact hc1 c hc
        · rw [List.flatMap_cons, ← hc2, utf8Char, if_pos hn]; rfl
      simp only [List.contains_cons, List.contains_nil, Bool.or_false, Bool.or_eq_true, beq_iff_eq] at hc
      have hd : ∀ c : Char, c ∈ ['n', 'r', 't', '\\', '\'', '"'] → digitVal 8 c = none := by decide
      rcases hc with rfl | rfl | rfl | rfl | rfl | rfl
      · exact key 10 (by decide) (by unfold unescape; simp [hd, protoEscape, h1]) (by simp [quoted, rustEscape, h2])
      · exact key 13 (by decide) (by unfold unescape; simp [hd, protoEscape, h1]) (by simp [quoted, rustEscape, h2])
      · exact key 9 (by decide) (by unfold unescape; simp [hd, protoEscape, h1]) (by simp [quoted, rustEscape, h2])
      · exact key 92 (by decide) (by unfold unescape; simp [hd, protoEscape, h1]) (by simp [quoted, rustEscape, h2])
      · exact key 39 (by decide) (by unfold unescape; simp [hd, protoEscape, h1]) (by simp [quoted, rustEscape, h2])
      · exact key 34 (by decide) (by unfold unescape; simp [hd, protoEscape, h1]) (by simp [quoted, rustEscape, h2])
    · exact hx
  | case4 => cases h
  | case5 c s h1 h2 h3 ih =>
    have hb : c ≠ '\\' := by
      rintro rfl
      cases s with
      | nil => exact h3 rfl rfl
      | cons a s => exact h2 a s rfl rfl
    rw [plainText] at h
    · simp only [Bool.and_eq_true, Bool.not_eq_true', Bool.or_eq_true, decide_eq_true_eq] at h
      obtain ⟨⟨hc, ha⟩, hs⟩ := h
      obtain ⟨r, i1, i2, i3⟩ := ih hs
      simp only [List.contains_cons, List.contains_nil, Bool.or_false, Bool.or_eq_false_iff, beq_eq_false_iff_ne] at hc
      obtain ⟨c1, c2, c3, c4⟩ := hc
      refine ⟨utf8Char c.toNat ++ r, ?_, ?_, ?_⟩
      · rw [unescape]
        · rw [if_neg (by simp [c3, c4]), i1]; rfl
        · exact fun h => hb h
      · rw [quoted]
        · rw [if_neg, i2]; · rfl
          rintro (h | h | h | ⟨ht, hn⟩)
          · exact c1 h
          · exact c2 h
          · exact c3 h
          · rcases ha with ha | ha
            · rw [ht] at ha; cases ha
            · omega
        all_goals simp_all
      · intro ht
        obtain ⟨cs, hc1, hc2⟩ := i3 ht
        refine ⟨c.toNat :: cs, ?_, ?_⟩
        · intro c' hc'
          rcases List.mem_cons.mp hc' with rfl | hc'
          · have := c.valid
            simp only [UInt32.isValidChar, Nat.isValidChar] at this
            rcases this with this | ⟨h1, h2⟩
            · exact Or.inl this
            · refine Or.inr ⟨?_, h2⟩
              show 0xE000 ≤ c.val.toNat
              omega
          · exact hc1 c' hc'
        · rw [List.flatMap_cons, ← hc2]
    all_goals simp_all

/-! ## Defaults -/

theorem digit10 {c : Char} (h : (digitVal 10 c).isSome = true) : '0' ≤ c ∧ c ≤ '9' := by
  unfold digitVal at h
  split at h
  · assumption
  · exfalso
    split at h
    · rename_i h1
      have : 'a'.toNat ≤ c.toNat := h1.1
      rw [Option.bind_some, if_neg (by have : 'a'.toNat = 97 := rfl; omega)] at h
      cases h
    · split at h
      · rename_i h1
        have : 'A'.toNat ≤ c.toNat := h1.1
        rw [Option.bind_some, if_neg (by have : 'A'.toNat = 65 := rfl; omega)] at h
        cases h
      · cases h

theorem lower_digit {c : Char} (h : (digitVal 10 c).isSome = true) : lower c = c := by
  have := digit10 h
  unfold lower
  rw [if_neg]
  rintro ⟨h1, _⟩
  have a : 'A'.toNat ≤ c.toNat := h1
  have b : c.toNat ≤ '9'.toNat := this.2
  exact absurd (Nat.le_trans a b) (by decide)

/-- A number begins with a digit or a point. -/
theorem real_starts {s : Str} {m : Nat} {e : Int} (h : RealText s m e) : ∃ c r, s = c :: r ∧ ((digitVal 10 c).isSome = true ∨ c = '.') := by
  cases h with
  | int s n hn =>
    cases hn with
    | zero => exact ⟨_, _, rfl, Or.inl rfl⟩
    | decimal s hd h0 =>
      obtain ⟨h1, h2⟩ := hd
      cases s with
      | nil => exact absurd rfl h1
      | cons c s => exact ⟨_, _, rfl, Or.inl (h2 c (List.mem_cons_self ..))⟩
    | octal s hd => exact ⟨_, _, rfl, Or.inl rfl⟩
    | hex x s hx hd => exact ⟨_, _, rfl, Or.inl rfl⟩
  | exp a x e ha hx =>
    obtain ⟨h1, h2⟩ := ha
    cases a with
    | nil => exact absurd rfl h1
    | cons c s => exact ⟨_, _, rfl, Or.inl (h2 c (List.mem_cons_self ..))⟩
  | point a b x e hne hd hx =>
    cases a with
    | nil => exact ⟨_, _, rfl, Or.inr rfl⟩
    | cons c s => exact ⟨_, _, rfl, Or.inl (hd c (List.mem_cons_self ..))⟩

/-- A number is not written like `inf` or `nan`. -/
theorem real_special {d : Str} {g : Bool} {m : Nat} {e : Int} (h : SignedReal d g m e) :
    d.map lower ≠ "inf".toList ∧ d.map lower ≠ "-inf".toList ∧ d.map lower ≠ "nan".toList := by
  have key : ∀ (c : Char), ((digitVal 10 c).isSome = true ∨ c = '.') → lower c ≠ 'i' ∧ lower c ≠ '-' ∧ lower c ≠ 'n' := by
    rintro c (h | rfl)
    · rw [lower_digit h]
      exact ⟨digit_ne h rfl, digit_ne h rfl, digit_ne h rfl⟩
    · decide
  cases h with
  | plus s m e h =>
    obtain ⟨c, r, rfl, hc⟩ := real_starts h
    obtain ⟨k1, k2, k3⟩ := key c hc
    refine ⟨fun h => k1 ?_, fun h => k2 ?_, fun h => k3 ?_⟩ <;> exact (List.cons.inj h).1
  | minus s m e h =>
    obtain ⟨c, r, rfl, hc⟩ := real_starts h
    obtain ⟨k1, k2, k3⟩ := key c hc
    refine ⟨fun h => ?_, fun h => k1 ?_, fun h => ?_⟩
    · exact absurd (List.cons.inj h).1 (by decide)
    · exact (List.cons.inj (List.cons.inj h).2).1
    · exact absurd (List.cons.inj h).1 (by decide)

/-- The type of the literal for a field of a scalar type. -/
def scalarTy : FieldType → Ty
  | .int32 | .sint32 | .sfixed32 => .i32
  | .int64 | .sint64 | .sfixed64 => .i64
  | .uint32 | .fixed32 => .u32
  | .uint64 | .fixed64 => .u64
  | .float => .f32
  | .double => .f64
  | .stringCow => .cowStr
  | .bytesCow => .cowBytes
  | .string_ => .ref .str
  | .bytes_ => .ref .slice
  | _ => .bool

theorem not_const {d suf : Str} {h : Str} (hd : (stripMinus d).2.head? ≠ some ':') (hh : h.head? = some ':') (hn : (stripMinus h).2 = h) (hs : suf.head? ≠ some ':') : d ++ suf ≠ h := by
  rintro rfl
  cases d with
  | nil => exact hs hh
  | cons c d =>
    have : c = ':' := Option.some.inj hh
    subst this
    exact hd rfl

theorem real_colon {d : Str} {g : Bool} {m : Nat} {e : Int} (h : SignedReal d g m e) : (stripMinus d).2.head? ≠ some ':' := by
  have key : ∀ (c : Char), ((digitVal 10 c).isSome = true ∨ c = '.') → c ≠ ':' := by
    rintro c (h | rfl)
    · exact digit_ne h rfl
    · decide
  cases h with
  | plus s m e h =>
    rw [real_head h]
    obtain ⟨c, r, rfl, hc⟩ := real_starts h
    exact fun h => key c hc (Option.some.inj h)
  | minus s m e h =>
    obtain ⟨c, r, rfl, hc⟩ := real_starts h
    exact fun h => key c hc (Option.some.inj h)

/-- The text pb-rs writes for a plain constant is a literal of the type of the field, with the value declared. -/
theorem plain_literal {F : Rounding} {t : FieldType} {d : Str} {x : RVal} (h : DeclaresDefault F t d x) (hp : PlainDefault t d = true) (path : FieldType → Str) :
    ∃ s y, sanitizeText path t d = some s ∧ litValue F (scalarTy t) s = some y ∧ DeclaresDefault F t d y ∧ (d ≠ c! "nan" → y = x) := by
  have h' := h
  cases h with
  | s32 t d i ht hi h1 h2 =>
    rcases ht with rfl | rfl | rfl <;>
    exact ⟨d ++ c! "i32", _, rfl, by rw [scalarTy, litValue, signedLit_eq hi hp h1 h2]; rfl, h', fun _ => rfl⟩
  | s64 t d i ht hi h1 h2 =>
    rcases ht with rfl | rfl | rfl <;>
    exact ⟨d ++ c! "i64", _, rfl, by rw [scalarTy, litValue, signedLit_eq hi hp h1 h2]; rfl, h', fun _ => rfl⟩
  | u32 t d n ht hi h2 =>
    rcases ht with rfl | rfl <;>
    exact ⟨d ++ c! "u32", _, rfl, by rw [scalarTy, litValue, unsignedLit_eq hi hp h2]; rfl, h', fun _ => rfl⟩
  | u64 t d n ht hi h2 =>
    rcases ht with rfl | rfl <;>
    exact ⟨d ++ c! "u64", _, rfl, by rw [scalarTy, litValue, unsignedLit_eq hi hp h2]; rfl, h', fun _ => rfl⟩
  | float d g m e hr =>
    obtain ⟨n1, n2, n3⟩ := real_special hr
    have hpl : plainReal (stripMinus d).2 = true := by
      simp only [PlainDefault, Bool.or_eq_true, decide_eq_true_eq] at hp
      rcases hp with ((rfl | rfl) | rfl) | hp
      · exact absurd rfl n1
      · exact absurd rfl n2
      · exact absurd rfl n3
      · exact hp
    have hc := real_colon hr
    refine ⟨d ++ c! "f32", _, by rw [sanitizeText, if_neg n1, if_neg n2, if_neg n3]; rfl, ?_, h', fun _ => rfl⟩
    rw [scalarTy, litValue, if_neg (not_const hc rfl rfl (by decide)), if_neg (not_const hc rfl rfl (by decide)), if_neg (not_const hc rfl rfl (by decide)),
      floatLit_eq hr hpl]
    rfl
  | floatInf => exact ⟨_, _, rfl, rfl, h', fun _ => rfl⟩
  | floatNegInf => exact ⟨_, _, rfl, rfl, h', fun _ => rfl⟩
  | floatNan => exact ⟨_, _, rfl, rfl, .floatNan _ (by decide), fun h => absurd rfl h⟩
  | double d g m e hr =>
    obtain ⟨n1, n2, n3⟩ := real_special hr
    have hpl : plainReal (stripMinus d).2 = true := by
      simp only [PlainDefault, Bool.or_eq_true, decide_eq_true_eq] at hp
      rcases hp with ((rfl | rfl) | rfl) | hp
      · exact absurd rfl n1
      · exact absurd rfl n2
      · exact absurd rfl n3
      · exact hp
    have hc := real_colon hr
    refine ⟨d ++ c! "f64", _, by rw [sanitizeText, if_neg n1, if_neg n2, if_neg n3]; rfl, ?_, h', fun _ => rfl⟩
    rw [scalarTy, litValue, if_neg (not_const hc rfl rfl (by decide)), if_neg (not_const hc rfl rfl (by decide)), if_neg (not_const hc rfl rfl (by decide)),
      floatLit_eq hr hpl]
    rfl
  | doubleInf => exact ⟨_, _, rfl, rfl, h', fun _ => rfl⟩
  | doubleNegInf => exact ⟨_, _, rfl, rfl, h', fun _ => rfl⟩
  | doubleNan => exact ⟨_, _, rfl, rfl, .doubleNan _ (by decide), fun h => absurd rfl h⟩
  | true_ => exact ⟨_, _, rfl, rfl, h', fun _ => rfl⟩
  | false_ => exact ⟨_, _, rfl, rfl, h', fun _ => rfl⟩
  | string t d b ht hu hv =>
    have hp : plainText true d = true := by rcases ht with rfl | rfl <;> exact hp
    obtain ⟨b', h1, h2, h3⟩ := quoted_eq true d hp
    cases hu.symm.trans h1
    rcases ht with rfl | rfl
    · exact ⟨c! "Cow::Borrowed(\"" ++ d ++ c! "\")", _, rfl, by rw [scalarTy, litValue, between_append, Option.bind_some, h2]; rfl, h', fun _ => rfl⟩
    · exact ⟨c! "\"" ++ d ++ c! "\"", _, rfl, by rw [scalarTy, litValue, between_append, Option.bind_some, h2]; rfl, h', fun _ => rfl⟩
  | bytes t d b ht hu =>
    have hp : plainText false d = true := by rcases ht with rfl | rfl <;> exact hp
    obtain ⟨b', h1, h2, h3⟩ := quoted_eq false d hp
    cases hu.symm.trans h1
    rcases ht with rfl | rfl
    · exact ⟨c! "Cow::Borrowed(b\"" ++ d ++ c! "\")", _, rfl, by rw [scalarTy, litValue, between_append, Option.bind_some, h2]; rfl, h', fun _ => rfl⟩
    · exact ⟨c! "b\"" ++ d ++ c! "\"", _, rfl, by rw [scalarTy, litValue, between_append, Option.bind_some, h2]; rfl, h', fun _ => rfl⟩

end QP.Rust
