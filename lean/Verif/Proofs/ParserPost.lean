import Verif.Proofs.Inversion
import Verif.Proofs.Trim
import Verif.Model.Pbrs.Parser
import Verif.Spec.Pipeline
/-!
# What is true of every result of the parser
-/

set_option linter.unusedVariables false

namespace QP.Pbrs.Parse
open Nom

/-- Nothing in the text that a panic needs. -/
def Harmless (s : Str) : Prop := ¬ Grammar.BadOption s ∧ ¬ Grammar.BadExtensions s

theorem badOption_suffix {s r : Str} (h : Grammar.BadOption r) (hr : r <:+ s) : Grammar.BadOption s := by
  obtain ⟨p, rfl⟩ := hr
  obtain ⟨a, k, g1, g2, v, b, rfl, h⟩ := h
  exact ⟨p ++ a, k, g1, g2, v, b, by simp only [List.append_assoc], h⟩

theorem badExtensions_suffix {s r : Str} (h : Grammar.BadExtensions r) (hr : r <:+ s) : Grammar.BadExtensions s := by
  obtain ⟨p, rfl⟩ := hr
  obtain ⟨a, g1, num, g2, g3, v, b, rfl, h⟩ := h
  exact ⟨p ++ a, g1, num, g2, g3, v, b, by simp only [List.append_assoc], h⟩

theorem Harmless.suffix {s r : Str} (h : Harmless s) (hr : r <:+ s) : Harmless r :=
  ⟨fun h2 => h.1 (badOption_suffix h2 hr), fun h2 => h.2 (badExtensions_suffix h2 hr)⟩

/-- Panics are allowed, or the input is harmless. -/
def Safe (pan : Prop) (s : Str) : Prop := pan ∨ Harmless s

variable {pan : Prop} {s : Str}

theorem Safe.suffix {r : Str} (h : Safe pan s) (hr : r <:+ s) : Safe pan r := h.imp id fun h => h.suffix hr

/-- A type as the parser makes it, with maps in maps. -/
def deepRaw : FieldType → Bool
  | .message _ | .enum _ | .string_ | .bytes_ => false
  | .map k v => deepRaw k && deepRaw v
  | _ => true

abbrev Any {α : Type} : α → Prop := fun _ => True

theorem Post.any {α : Type} {A : α → Prop} {x : Res α} (h : Post pan s A x) : Post pan s Any x := h.mono fun _ _ => trivial

theorem tok_post (k : Str) : Post pan s Any (tok k s) := Post.tok k fun _ => trivial

theorem word_post : Post pan s (fun w => w <+: s) (word s) := by
  refine Post.recognize (A := Any) (Post.any (Post.pair (A := Any) (B := Any) (Post.alt ?_) fun r hr =>
    Post.any (Post.many0 (A := Any) fun t ht => Post.alt ?_)))
  all_goals
    intro p hp
    simp only [List.mem_cons, List.not_mem_nil, or_false] at hp
    rcases hp with rfl | rfl
    · exact Post.any (Post.takeWhile1 _)
    · exact tok_post _

theorem recognize_inv {α : Type} {p : Parser α} {s w r : Str} (h : recognize p s = .ok w r)
    (hp : ∀ a r, p s = .ok a r → r <:+ s) : s = w ++ r := by
  simp only [recognize] at h
  split at h
  · rename_i a r' hpr
    cases h
    obtain ⟨t, rfl⟩ := hp _ _ hpr
    simp
  · cases h
  · cases h

theorem word_inv {s w r : Str} (h : word s = .ok w r) : s = w ++ r := by
  refine recognize_inv h fun a r hr => ?_
  have : Post True s Any (pair (alt [takeWhile1 isAlpha, tok (c! "_")])
      (many0 (alt [takeWhile1 (fun c => isAlpha c || isDigit c), tok (c! "_")])) s) := by
    refine Post.any (Post.pair (A := Any) (B := Any) (Post.alt ?_) fun r hr =>
      Post.any (Post.many0 (A := Any) fun t ht => Post.alt ?_))
    all_goals
      intro p hp
      simp only [List.mem_cons, List.not_mem_nil, or_false] at hp
      rcases hp with rfl | rfl
      · exact Post.any (Post.takeWhile1 _)
      · exact tok_post _
  rw [hr] at this
  exact this.1

theorem name_post : Post pan s Any (qualifiableName s) :=
  Post.verify (Post.any (Post.recognize (Post.pair (Post.opt (tok_post _)) fun r hr =>
    Post.separatedList1 (A := Any) (B := Any) (fun t ht => tok_post _) fun t ht => Post.any word_post)))

/-- A number that is not negative and fits into `i32`. -/
def Nat31 (i : Int) : Prop := 0 ≤ i ∧ i < 2 ^ 31

theorem parseNat32_ok {b : Nat} {t r : Str} {i : Int} (h : parseNat32 b t = .ok i r) : Nat31 i := by
  simp only [parseNat32] at h
  split at h
  · rename_i hl
    cases h
    exact ⟨Int.natCast_nonneg _, by exact_mod_cast hl⟩
  · cases h

theorem integer_nat : Post pan s Nat31 (integer s) := by
  refine Post.mapRes (Post.takeWhile1 _) fun a _ => ⟨fun _ _ h => parseNat32_ok h, ?_⟩
  simp only [parseNat32]
  split <;> intro h <;> cases h

theorem hexInteger_nat : Post pan s Nat31 (hexInteger s) := by
  refine Post.preceded (tok_post _) fun r hr => Post.mapRes (Post.takeWhile1 _) fun a _ => ⟨fun _ _ h => parseNat32_ok h, ?_⟩
  simp only [parseNat32]
  split <;> intro h <;> cases h

theorem integer_post : Post pan s Any (integer s) := Post.any integer_nat

theorem hexInteger_post : Post pan s Any (hexInteger s) := Post.any hexInteger_nat

theorem string_post : Post pan s Any (string s) :=
  Post.delimited (tok_post _) (fun r hr => Post.any (Post.takeUntil _)) fun r hr => tok_post _

theorem br_post : Post pan s Any (br s) := by
  refine Post.value (A := Any) (Post.any (Post.many1 (A := Any) fun r hr => Post.alt ?_)) trivial
  intro p hp
  simp only [List.mem_cons, List.not_mem_nil, or_false] at hp
  rcases hp with rfl | rfl | rfl
  · exact Post.value (Post.takeWhile1 _) trivial
  · exact Post.value (Post.pair (tok_post _) fun t ht => Post.notLineEnding) trivial
  · exact Post.value (Post.pair (tok_post _) fun t ht => Post.pair (Post.any (Post.takeUntil _)) fun u hu => tok_post _) trivial

theorem gap0_post : Post pan s Any (gap0 s) := Post.value (Post.many0 fun r hr => br_post) trivial

theorem gap1_post : Post pan s Any (gap1 s) := Post.value (Post.many1 fun r hr => br_post) trivial

/-- A keyword and a gap. -/
theorem kw_post (k : Str) : Post pan s Any (pair (tok k) gap1 s) :=
  Post.any (Post.pair (tok_post _) fun r hr => gap1_post)

/-- A gap and a keyword. -/
theorem end_post (k : Str) : Post pan s Any (pair gap0 (tok k) s) :=
  Post.any (Post.pair gap0_post fun r hr => tok_post _)

theorem between_post (k : Str) : Post pan s Any (delimited gap0 (tok k) gap0 s) :=
  Post.delimited gap0_post (fun r hr => tok_post _) fun r hr => gap0_post

theorem syntax_post : Post pan s Any (syntaxP s) := by
  refine Post.delimited (A := Any) (C := Any)
    (Post.any (Post.pair (tok_post _) fun r hr => Post.pair gap0_post fun r hr => Post.pair (tok_post _)
    fun r hr => gap0_post)) (fun r hr => Post.alt ?_) fun r hr => end_post _
  intro p hp
  simp only [List.mem_cons, List.not_mem_nil, or_false] at hp
  rcases hp with rfl | rfl <;> exact Post.value (tok_post _) trivial

theorem import_post : Post pan s Any (importP s) :=
  Post.delimited (kw_post _) (fun r hr => string_post) fun r hr => end_post _

theorem package_post : Post pan s Any (packageP s) :=
  Post.delimited (kw_post _) (fun r hr => name_post) fun r hr => end_post _

theorem integer_inv {s r : Str} {i : Int} (h : integer s = .ok i r) : ∃ num, s = num ++ r ∧ ∃ n, Grammar.Decimal n num := by
  obtain ⟨a, t, h1, h2⟩ := andThen_inv h
  obtain ⟨e, hne, hd, _⟩ := takeWhile1_inv h1
  have : t = r := by
    simp only [parseNat32] at h2
    split at h2
    · rename_i hx; split at hx <;> cases hx; cases h2; rfl
    · cases h2
    · cases h2
  subst this
  exact ⟨a, e, Grammar.decimal_of hne hd⟩

theorem extensions_panic {s : Str} (h : extensions s = .panic) : Grammar.BadExtensions s := by
  have hpost : Post False s Any (delimited (pair (tok (c! "extensions")) gap1)
      (pair integer (preceded (pair gap0 (pair (tok (c! "to")) gap1)) (takeUntil (c! ";")))) (tok (c! ";")) s) := by
    refine Post.delimited (A := Any) (B := Any) (C := Any) (kw_post _) ?_ fun r hr => tok_post _
    exact fun r hr => Post.any (Post.pair integer_post fun t ht => Post.preceded (A := Any) (B := Any)
        (Post.any (Post.pair gap0_post fun u hu => Post.pair (tok_post _) fun v hv => gap1_post))
        fun u hu => Post.any (Post.takeUntil _))
  simp only [extensions, mapRes, Nom.andThen] at h
  split at h
  · rename_i p t hp
    split at h
    · cases h
    · cases h
    · rename_i hx
      obtain ⟨_, _, r, u, h1, h2, h3⟩ := delimited_inv hp
      obtain ⟨r1, h4, h5⟩ := pair_inv h1
      obtain ⟨r2, h6, h7⟩ := pair_inv h2
      obtain ⟨_, r3, h8, h9⟩ := preceded_inv h7
      obtain ⟨r4, h10, h11⟩ := pair_inv h8
      obtain ⟨r5, h12, h13⟩ := pair_inv h11
      obtain ⟨e9, hv, t9, e9'⟩ := takeUntil_inv h9
      have e3 := tok_inv h3
      have e12 := tok_inv h12
      have e4 := tok_inv h4
      obtain ⟨num, e6, hnum⟩ := integer_inv h6
      have n3 : r3 ≠ [] := by rw [e9, e9']; simp
      have n4 : r4 ≠ [] := by rw [e12]; simp
      obtain ⟨g3, e13, hg3⟩ := Grammar.gap1_inv h13 n3
      obtain ⟨g2, e10, hg2⟩ := Grammar.gap0_inv h10 n4
      have nr : r ≠ [] := by
        rw [e6, e10]; intro h; exact n4 (List.append_eq_nil_iff.mp (List.append_eq_nil_iff.mp h).2).2
      obtain ⟨g1, e5, hg1⟩ := Grammar.gap1_inv h5 nr
      refine ⟨[], g1, num, g2, g3, p.2, t, ?_, hg1, hnum, hg2, hg3, hv, ?_⟩
      · rw [e4, e5, e6, e10, e12, e13, e9, e3]
        simp only [List.append_assoc, List.nil_append]
      · rintro ⟨b1, w, b2, e, hb1, hb2, hw⟩
        have htrim : trim p.2 = w := by
          rw [e]
          refine Grammar.trim_both hb1 ?_ hb2
          rcases hw with rfl | ⟨n, hw, _⟩
          · exact ⟨⟨'m', rfl, by unfold Grammar.Visible; decide⟩, ⟨'x', rfl, by unfold Grammar.Visible; decide⟩⟩
          · exact hw.visible
        rw [htrim] at hx
        rcases hw with rfl | ⟨n, hw, hn⟩
        · cases hx
        · split at hx
          · cases hx
          · rw [Grammar.parseI32_ok hw hn] at hx
            cases hx
  · cases h
  · rename_i hp
    rw [hp] at hpost
    exact hpost.elim

theorem extensions_post (h : Safe pan s) : Post pan s Any (extensions s) := by
  have hp : extensions s = .panic → pan := fun hx => h.resolve_right fun h => h.2 (extensions_panic hx)
  have : Post True s Any (extensions s) := by
    refine Post.mapRes (A := Any) (B := Any) (Post.delimited (A := Any) (B := Any) (C := Any) (kw_post _) ?_ ?_) ?_
    · exact fun r hr => Post.any (Post.pair integer_post fun t ht => Post.preceded (A := Any) (B := Any)
        (Post.any (Post.pair gap0_post fun u hu => Post.pair (tok_post _) fun v hv => gap1_post))
        fun u hu => Post.any (Post.takeUntil _))
    · exact fun r hr => tok_post _
    · exact fun a _ => ⟨fun _ _ _ => trivial, fun _ => trivial⟩
  cases hx : extensions s with
  | ok a r => rw [hx] at this; exact this
  | err => trivial
  | panic => exact hp hx

theorem numRange_post : Post pan s Any (numRange s) :=
  Post.map (Post.separatedPair integer_post (fun r hr => Post.pair gap1_post fun t ht => Post.pair (tok_post _)
    fun u hu => gap1_post) fun r hr => integer_post) fun _ _ => trivial

theorem comma_post : Post pan s Any (comma s) :=
  Post.value (Post.pair gap0_post fun r hr => Post.pair (tok_post _) fun r hr => gap0_post) trivial

theorem reservedNums_post : Post pan s Any (reservedNums s) := by
  refine Post.map (A := Any) (Post.any (Post.delimited (A := Any) (B := Any) (C := Any) (kw_post _)
    (fun r hr => Post.any (Post.separatedList1 (A := Any) (B := Any) (fun r hr => comma_post) fun r hr => Post.alt ?_))
    fun r hr => end_post _)) fun _ _ => trivial
  intro p hp
  simp only [List.mem_cons, List.not_mem_nil, or_false] at hp
  rcases hp with rfl | rfl
  · exact numRange_post
  · exact Post.map integer_post fun _ _ => trivial

theorem reservedNames_post : Post pan s Any (reservedNames s) :=
  Post.delimited (kw_post _) (fun r hr => Post.any (Post.separatedList1 (fun r hr => comma_post) fun r hr => string_post))
    fun r hr => end_post _

/-- The text that an option has been read from. -/
def KeyValText (s : Str) (kv : Str × Str) : Prop :=
  ∃ a g1 g2 v b, s = a ++ kv.1 ++ g1 ++ c! "=" ++ g2 ++ v ++ c! "]" ++ b ∧ Grammar.Gap g1 ∧ Grammar.Gap g2 ∧ ']' ∉ v ∧
    kv.2 = trim v

theorem KeyValText.suffix {r : Str} {kv : Str × Str} (h : KeyValText r kv) (hr : r <:+ s) : KeyValText s kv := by
  obtain ⟨p, rfl⟩ := hr
  obtain ⟨a, g1, g2, v, b, rfl, h⟩ := h
  exact ⟨p ++ a, g1, g2, v, b, by simp only [List.append_assoc], h⟩

theorem KeyValText.bad {kv : Str × Str} (h : KeyValText s kv) (hk : kv.1 = c! "packed" ∨ kv.1 = c! "deprecated")
    (h1 : kv.2 ≠ c! "true") (h2 : kv.2 ≠ c! "false") : Grammar.BadOption s := by
  obtain ⟨a, g1, g2, v, b, e, hg1, hg2, hv, ht⟩ := h
  refine ⟨a, kv.1, g1, g2, v, b, e, hk, hg1, hg2, hv, ?_⟩
  rintro ⟨b1, w, b2, rfl, hb1, hb2, hw⟩
  rw [Grammar.trim_both hb1 ?_ hb2] at ht
  · rcases hw with rfl | rfl
    · exact h1 ht
    · exact h2 ht
  · rcases hw with rfl | rfl
    · exact ⟨⟨'t', rfl, by unfold Grammar.Visible; decide⟩, ⟨'e', rfl, by unfold Grammar.Visible; decide⟩⟩
    · exact ⟨⟨'f', rfl, by unfold Grammar.Visible; decide⟩, ⟨'e', rfl, by unfold Grammar.Visible; decide⟩⟩

theorem keyVal_inv {s r : Str} {kv : Str × Str} (h : keyVal s = .ok kv r) : KeyValText s kv := by
  obtain ⟨_, _, r1, u, h1, h2, h3⟩ := delimited_inv h
  obtain ⟨r2, h4, h5⟩ := pair_inv h1
  obtain ⟨_, r3, r4, h6, h7, h8⟩ := separatedPair_inv h2
  obtain ⟨_, _, r5, r6, h9, h10, h11⟩ := delimited_inv h7
  obtain ⟨v, h12, h13⟩ := map_inv h8
  obtain ⟨e12, hv, t12, e12'⟩ := takeUntil_inv h12
  have e10 := tok_inv h10
  have e6 := word_inv h6
  have n4 : r4 ≠ [] := by rw [e12, e12']; simp
  obtain ⟨g2, e11, hg2⟩ := Grammar.gap0_inv h11 n4
  have n5 : r5 ≠ [] := by rw [e10]; simp
  obtain ⟨g1, e9, hg1⟩ := Grammar.gap0_inv h9 n5
  have n1 : r1 ≠ [] := by
    rw [e6, e9]; intro h; exact n5 (List.append_eq_nil_iff.mp (List.append_eq_nil_iff.mp h).2).2
  obtain ⟨g0, e5, hg0⟩ := Grammar.gap0_inv h5 n1
  refine ⟨c! "[" ++ g0, g1, g2, v, r, ?_, hg1, hg2, hv, h13.symm⟩
  rw [tok_inv h4, e5, e6, e9, e10, e11, e12, tok_inv h3]
  simp only [List.append_assoc]

theorem keyVal_post : Post pan s (KeyValText s) (keyVal s) := by
  have : Post pan s Any (keyVal s) := by
    refine Post.delimited (A := Any) (C := Any) (Post.any (Post.pair (tok_post _) fun r hr => gap0_post)) (fun r hr => ?_)
      fun r hr => tok_post _
    exact Post.any (Post.separatedPair (A := Any) (C := Any) (Post.any word_post) (fun t ht => between_post _) fun t ht =>
      Post.map (Post.takeUntil _) fun _ _ => trivial)
  cases hx : keyVal s with
  | ok a r => rw [hx] at this; exact ⟨this.1, keyVal_inv hx⟩
  | err => trivial
  | panic => rw [hx] at this; exact this

theorem frequency_post : Post pan s Any (frequency s) := by
  refine Post.alt ?_
  intro p hp
  simp only [List.mem_cons, List.not_mem_nil, or_false] at hp
  rcases hp with rfl | rfl | rfl <;> exact Post.value (tok_post _) trivial

theorem fieldTypeN_post (n : Nat) : ∀ s, Post pan s (fun t => deepRaw t = true) (fieldTypeN n s) := by
  induction n with
  | zero => intro s; trivial
  | succ n ih =>
    intro s
    refine Post.alt ?_
    intro p hp
    rcases List.mem_append.mp hp with hp | hp
    · obtain ⟨x, hx, rfl⟩ := List.mem_map.mp hp
      have key : ∀ x ∈ scalarTypes, deepRaw x.1 = true := by decide
      exact Post.value (tok_post _) (key x hx)
    · simp only [List.mem_cons, List.not_mem_nil, or_false] at hp
      rcases hp with rfl | rfl
      · refine Post.map (Post.delimited (A := Any) (C := Any) (Post.any (Post.pair (tok_post _) fun r hr => Post.pair gap0_post
          fun r hr => Post.pair (tok_post _) fun r hr => gap0_post)) (fun r hr => Post.separatedPair (ih _)
          (fun r hr => between_post _) fun r hr => ih _) fun r hr => end_post _) ?_
        intro a ha
        simp only [deepRaw, ha.1, ha.2, Bool.and_self]
      · exact Post.map name_post fun _ _ => rfl

theorem fieldType_post : Post pan s (fun t => deepRaw t = true) (fieldType s) := fieldTypeN_post _ s

theorem boolOption_panic {key : Str} {kvs : List (Str × Str)} (h : boolOption key kvs = .panic) :
    ∃ v, (key, v) ∈ kvs ∧ v ≠ c! "true" ∧ v ≠ c! "false" := by
  simp only [boolOption] at h
  split at h
  · cases h
  · rename_i k v hf
    have h1 := List.mem_of_find?_eq_some hf
    have h2 := List.find?_some hf
    simp only [beq_iff_eq] at h2
    subst h2
    split at h
    · cases h
    · split at h
      · cases h
      · exact ⟨v, h1, by assumption, by assumption⟩

theorem boolOption_ne_err {key : Str} {kvs : List (Str × Str)} : boolOption key kvs ≠ .err := by
  intro h
  simp only [boolOption] at h
  split at h
  · cases h
  · split at h
    · cases h
    · split at h <;> cases h

theorem defaultCheck_no_panic {syn : Syntax} {typ : FieldType} {kvs : List (Str × Str)} :
    defaultCheck syn typ kvs ≠ .panic := by
  have key : ∀ (v : Str), Post False v Any (alt [delimited (tok (c! "\"")) (takeUntil (c! "\"")) (tok (c! "\"")),
      delimited (tok (c! "'")) (takeUntil (c! "'")) (tok (c! "'"))] v) := by
    intro v
    refine Post.alt ?_
    intro p hp
    simp only [List.mem_cons, List.not_mem_nil, or_false] at hp
    rcases hp with rfl | rfl <;>
      exact Post.delimited (tok_post _) (fun r hr => Post.any (Post.takeUntil _)) fun r hr => tok_post _
  intro h
  simp only [defaultCheck] at h
  split at h
  · cases h
  · rename_i k v hf
    have hk := key v
    split at h
    · split at h
      · cases h
      · cases h
      · rename_i hx; rw [hx] at hk; exact hk
    · split at h
      · cases h
      · cases h
      · rename_i hx; rw [hx] at hk; exact hk
    · cases h

/-- Of a field as the parser makes it. -/
structure FieldOut (f : Field) : Prop where
  boxed : f.boxed = false
  typ : deepRaw f.typ = true
  number : Nat31 f.number

theorem makeField_ok {ff : Syntax → FieldType → Option FreqToken → Frequency} {syn : Syntax} {fr : Option FreqToken}
    {t : FieldType} {n : Str} {num : Int} {kvs : List (Str × Str)} {f : Field} {r : Str}
    (h : makeField ff syn fr t n num kvs = .ok f r) : f.boxed = false ∧ f.typ = t ∧ f.frequency = ff syn t fr ∧ f.number = num := by
  simp only [makeField] at h
  split at h
  · cases h
  · cases h
  · split at h
    · cases h
    · cases h
    · split at h
      · cases h
      · cases h
      · cases h; exact ⟨rfl, rfl, rfl, rfl⟩

theorem makeField_panic {ff : Syntax → FieldType → Option FreqToken → Frequency} {syn : Syntax} {fr : Option FreqToken}
    {t : FieldType} {n : Str} {num : Int} {kvs : List (Str × Str)} (h : makeField ff syn fr t n num kvs = .panic) :
    ∃ k v, (k, v) ∈ kvs ∧ (k = c! "packed" ∨ k = c! "deprecated") ∧ v ≠ c! "true" ∧ v ≠ c! "false" := by
  simp only [makeField] at h
  split at h
  · cases h
  · rename_i hd; exact absurd hd defaultCheck_no_panic
  · split at h
    · cases h
    · rename_i hp; obtain ⟨v, hv, h2⟩ := boolOption_panic hp; exact ⟨_, v, hv, Or.inl rfl, h2⟩
    · split at h
      · cases h
      · rename_i hp; obtain ⟨v, hv, h2⟩ := boolOption_panic hp; exact ⟨_, v, hv, Or.inr rfl, h2⟩
      · cases h

theorem fieldGeneric_post {ff : Syntax → FieldType → Option FreqToken → Frequency} {syn : Syntax} (h : Safe pan s) :
    Post pan s (fun f => FieldOut f ∧ ∃ fr, f.frequency = ff syn f.typ fr) (fieldGeneric ff syn s) := by
  refine Post.mapRes (A := fun p => deepRaw p.2.1 = true ∧ Nat31 p.2.2.1.2 ∧ ∀ kv ∈ p.2.2.2, KeyValText s kv) ?_ ?_
  · have h4 : ∀ r, r <:+ s → Post pan r (fun l : List (Str × Str) => ∀ kv ∈ l, KeyValText s kv)
        (delimited gap0 (many0 keyVal) (pair gap0 (tok (c! ";"))) r) := fun r hr =>
      Post.delimited gap0_post (fun t ht => Post.many0 fun u hu => Post.mono keyVal_post fun kv h =>
        h.suffix (hu.trans (ht.trans hr))) fun r hr => end_post _
    have h3 : ∀ r, Post pan r (fun p : Str × Int => Nat31 p.2) (separatedPair word (delimited gap0 (tok (c! "=")) gap0) (alt [integer, hexInteger]) r) := by
      intro r
      refine Post.mono (Post.separatedPair (A := Any) (B := Any) (C := Nat31) (Post.any word_post) (fun r hr => between_post _)
        fun r hr => Post.alt ?_) fun p hp => hp.2
      intro p hp
      simp only [List.mem_cons, List.not_mem_nil, or_false] at hp
      rcases hp with rfl | rfl
      · exact integer_nat
      · exact hexInteger_nat
    have := Post.pair (pan := pan) (s := s) (Post.opt (Post.terminated (q := gap1) (B := Any) (frequency_post (s := s))
      fun r hr => gap1_post)) fun r hr =>
      Post.pair (Post.terminated (q := gap1) (B := Any) (fieldType_post (s := r)) fun r hr => gap1_post) fun r1 hr1 =>
      Post.pair (h3 r1) fun r2 hr2 => h4 r2 (hr2.trans (hr1.trans hr))
    exact Post.mono this fun p hp => ⟨hp.2.1, hp.2.2.1, hp.2.2.2⟩
  · intro p hp
    refine ⟨fun f r hf => ?_, fun hpan => ?_⟩
    · obtain ⟨h1, h2, h3, h4⟩ := makeField_ok hf
      exact ⟨⟨h1, by rw [h2]; exact hp.1, by rw [h4]; exact hp.2.1⟩, p.1, by rw [h3, h2]⟩
    · obtain ⟨k, v, hv, hk, h1, h2⟩ := makeField_panic hpan
      rcases h with h | h
      · exact h
      · exact absurd ((hp.2.2 _ hv).bad hk h1 h2) h.1

/-- Of the fields of a message: the frequency is "map" for maps and only for them. -/
def MapFreq (f : Field) : Prop := f.frequency.isMap = f.typ.isMap

theorem messageField_post {syn : Syntax} (h : Safe pan s) :
    Post pan s (fun f => FieldOut f ∧ MapFreq f) (messageField syn s) := by
  refine Post.mono (fieldGeneric_post h) ?_
  rintro f ⟨h1, fr, h2⟩
  refine ⟨h1, ?_⟩
  unfold MapFreq
  rw [h2]
  cases syn <;> cases hf : f.typ <;> rcases fr with _ | ⟨⟨⟩⟩ <;> rfl

theorem oneofField_post {syn : Syntax} (h : Safe pan s) : Post pan s FieldOut (oneofMessageField syn s) :=
  Post.mono (fieldGeneric_post h) fun _ h => h.1

theorem oneOf_post {syn : Syntax} (h : Safe pan s) :
    Post pan s (fun o => ∀ f ∈ o.fields, FieldOut f) (oneOf syn s) := by
  refine Post.map (A := fun p => ∀ f ∈ p.2, FieldOut f) ?_ fun p hp => hp
  refine Post.mono (Post.pair (A := Any) (B := fun l => ∀ f ∈ l, FieldOut f)
    (Post.preceded (kw_post _) fun r hr => Post.any word_post) fun r hr => ?_) fun p hp => hp.2
  exact Post.delimited (end_post _) (fun t ht => Post.many1 fun u hu => Post.delimited gap0_post
    (fun v hv => oneofField_post (h.suffix (hv.trans (hu.trans (ht.trans hr))))) fun _ _ => gap0_post) fun _ _ => tok_post _

theorem option_post : Post pan s Any (optionIgnore s) :=
  Post.value (Post.delimited (B := Any) (C := Any) (kw_post _) (fun r hr => Post.any (Post.takeUntil _)) fun _ _ => tok_post _)
    trivial

theorem rpcEnd_post : Post pan s Any (rpcEnd s) := by
  refine Post.alt ?_
  intro p hp
  simp only [List.mem_cons, List.not_mem_nil, or_false] at hp
  rcases hp with rfl | rfl
  · refine Post.value (A := Any) (Post.any (Post.delimited (A := Any) (B := Any) (C := Any)
      (Post.any (Post.pair (tok_post _) fun _ _ => gap0_post))
      (fun r hr => Post.any (Post.many0 (A := Any) fun t ht => Post.alt ?_)) fun _ _ => end_post _)) trivial
    intro p hp
    simp only [List.mem_cons, List.not_mem_nil, or_false] at hp
    rcases hp with rfl | rfl
    · exact option_post
    · exact Post.value (tok_post _) trivial
  · exact Post.value (tok_post _) trivial

theorem rpcFunction_post : Post pan s Any (rpcFunction s) := by
  refine Post.map (A := Any) ?_ fun _ _ => trivial
  refine Post.any (Post.pair (A := Any) (B := Any) (Post.any (Post.delimited (kw_post _) (fun _ _ => Post.any word_post) fun _ _ => gap0_post))
    fun r hr => Post.any (Post.pair (A := Any) (B := Any) (Post.any (Post.delimited (A := Any) (C := Any)
      (Post.any (Post.pair (tok_post _) fun _ _ => gap0_post)) (fun _ _ => Post.any word_post) fun _ _ => end_post _))
      fun r hr => Post.any (Post.pair (A := Any) (B := Any) (Post.any (Post.delimited (A := Any) (C := Any) (Post.any
        (Post.pair gap1_post fun _ _ => Post.pair (tok_post _) fun _ _ => Post.pair gap0_post fun _ _ => Post.pair (tok_post _)
          fun _ _ => gap0_post)) (fun _ _ => Post.any word_post) fun _ _ => end_post _))
        fun r hr => Post.preceded gap0_post fun _ _ => rpcEnd_post)))

theorem rpcService_post : Post pan s Any (rpcService s) := by
  refine Post.map (A := Any) ?_ fun _ _ => trivial
  exact Post.any (Post.pair (A := Any) (B := Any)
    (Post.any (Post.delimited (kw_post _) (fun _ _ => Post.any word_post) fun _ _ => gap0_post))
    fun r hr => Post.any (Post.delimited (tok_post _) (fun _ _ => Post.many0 (A := Any) fun _ _ => Post.delimited gap0_post
      (fun _ _ => rpcFunction_post) fun _ _ => gap0_post) fun _ _ => tok_post _))

theorem spaces_post : Post pan s Any (many0 (takeWhile1 isSpace) s) := Post.any (Post.many0 fun _ _ => Post.takeWhile1 _)

theorem enumDeprecated_post : Post pan s Any (enumDeprecated s) :=
  Post.value (A := Any) (Post.any (Post.pair (tok_post _) fun _ _ => Post.pair spaces_post fun _ _ => Post.pair (tok_post _) fun _ _ =>
    Post.pair spaces_post fun _ _ => Post.pair (tok_post _) fun _ _ => Post.pair spaces_post fun _ _ =>
    Post.pair (Post.any word_post) fun _ _ => Post.pair spaces_post fun _ _ => tok_post _)) trivial

theorem enumField_post : Post pan s Any (enumField s) := by
  refine Post.terminated (B := Any) (Post.any (Post.separatedPair (A := Any) (B := Any) (C := Any) (Post.any word_post)
    (fun _ _ => Post.any (Post.pair gap0_post fun _ _ => Post.pair (tok_post _) fun _ _ => gap0_post))
    fun _ _ => Post.alt ?_)) fun _ _ => Post.any (Post.pair (A := Any) (B := Any) (Post.any (Post.many0 (A := Any) fun _ _ =>
      Post.alt ?_)) fun _ _ => tok_post _)
  · intro p hp
    simp only [List.mem_cons, List.not_mem_nil, or_false] at hp
    rcases hp with rfl | rfl
    · exact hexInteger_post
    · exact integer_post
  · intro p hp
    simp only [List.mem_cons, List.not_mem_nil, or_false] at hp
    rcases hp with rfl | rfl
    · exact br_post
    · exact enumDeprecated_post

theorem enumEvent_post : Post pan s Any (enumEvent s) := by
  refine Post.alt ?_
  intro p hp
  simp only [List.mem_cons, List.not_mem_nil, or_false] at hp
  rcases hp with rfl | rfl | rfl
  · exact Post.map enumField_post fun _ _ => trivial
  · exact Post.value option_post trivial
  · exact Post.value br_post trivial

theorem optSemi_post : Post pan s Any (optSemi s) := Post.value (Post.opt (end_post _)) trivial

theorem enumerator_post : Post pan s Any (enumerator s) :=
  Post.map (A := Any) (Post.terminated (Post.any (Post.pair (A := Any) (B := Any)
    (Post.any (Post.delimited (kw_post _) (fun _ _ => Post.any word_post) fun _ _ => gap0_post))
    fun _ _ => Post.any (Post.delimited (tok_post _) (fun _ _ => Post.many0 (A := Any) fun _ _ => enumEvent_post)
      fun _ _ => tok_post _))) fun _ _ => optSemi_post) fun _ _ => trivial

/-- Of a message as the parser makes it. -/
inductive MessageOut : Message → Prop where
  | mk {m : Message} : (∀ f ∈ m.fields, FieldOut f ∧ MapFreq f) → (∀ o ∈ m.oneofs, ∀ f ∈ o.fields, FieldOut f) →
      (∀ n ∈ m.messages, MessageOut n) → MessageOut m

/-- Of an event as the parser makes it. -/
def EventOut : MessageEvent → Prop
  | .message m => MessageOut m
  | .field f => FieldOut f ∧ MapFreq f
  | .oneof o => ∀ f ∈ o.fields, FieldOut f
  | _ => True

theorem apply_out {m : Message} {e : MessageEvent} (hm : MessageOut m) (he : EventOut e) : MessageOut (MessageEvent.apply m e) := by
  cases hm with
  | mk h1 h2 h3 =>
    cases e with
    | field f =>
      refine ⟨?_, h2, h3⟩
      intro g hg
      rcases List.mem_append.mp hg with hg | hg
      · exact h1 g hg
      · rw [List.mem_singleton.mp hg]; exact he
    | oneof o =>
      refine ⟨h1, ?_, h3⟩
      intro g hg
      rcases List.mem_append.mp hg with hg | hg
      · exact h2 g hg
      · rw [List.mem_singleton.mp hg]; exact he
    | message n =>
      refine ⟨h1, h2, ?_⟩
      intro g hg
      rcases List.mem_append.mp hg with hg | hg
      · exact h3 g hg
      · rw [List.mem_singleton.mp hg]; exact he
    | enumerator e => exact ⟨h1, h2, h3⟩
    | reservedNums l => exact ⟨h1, h2, h3⟩
    | reservedNames l => exact ⟨h1, h2, h3⟩
    | extensions => exact ⟨h1, h2, h3⟩
    | ignore => exact ⟨h1, h2, h3⟩

theorem build_out {name : Str} {l : List MessageEvent} (h : ∀ e ∈ l, EventOut e) : MessageOut (buildMessage name l) := by
  have key : ∀ (l : List MessageEvent) (m : Message), MessageOut m → (∀ e ∈ l, EventOut e) →
      MessageOut (l.foldl MessageEvent.apply m) := by
    intro l
    induction l with
    | nil => intro m hm _; exact hm
    | cons e l ih => exact fun m hm h => ih _ (apply_out hm (h e (by simp))) fun e' he' => h e' (by simp [he'])
  exact key l _ ⟨by simp, by simp, by simp⟩ h

theorem messageEvent_post {msg : Parser Message} {syn : Syntax} (h : Safe pan s) (hm : Post pan s MessageOut (msg s)) :
    Post pan s EventOut (messageEvent msg syn s) := by
  refine Post.alt ?_
  intro p hp
  simp only [List.mem_cons, List.not_mem_nil, or_false] at hp
  rcases hp with rfl | rfl | rfl | rfl | rfl | rfl | rfl | rfl | rfl
  · exact Post.map reservedNums_post fun _ _ => trivial
  · exact Post.map reservedNames_post fun _ _ => trivial
  · exact Post.map (messageField_post h) fun _ h => h
  · exact Post.map hm fun _ h => h
  · exact Post.map enumerator_post fun _ _ => trivial
  · exact Post.map (oneOf_post h) fun _ h => h
  · exact Post.map (extensions_post h) fun _ _ => trivial
  · exact Post.value option_post trivial
  · exact Post.value br_post trivial

theorem messageN_post {syn : Syntax} (n : Nat) : ∀ s, Safe pan s → Post pan s MessageOut (messageN syn n s) := by
  induction n with
  | zero => intro s _; trivial
  | succ n ih =>
    intro s h
    refine Post.map (A := fun p => ∀ e ∈ p.2, EventOut e) (Post.terminated (B := Any) ?_ fun _ _ => optSemi_post)
      fun p hp => build_out hp
    refine Post.mono (Post.pair (A := Any) (B := fun l => ∀ e ∈ l, EventOut e)
      (Post.any (Post.delimited (kw_post _) (fun _ _ => Post.any word_post) fun _ _ => gap0_post)) fun r hr => ?_) fun _ h => h.2
    exact Post.delimited (tok_post _) (fun t ht => Post.many0 fun u hu =>
      have hs : Safe pan u := h.suffix (hu.trans (ht.trans hr))
      messageEvent_post hs (ih u hs)) fun _ _ => tok_post _

theorem message_post {syn : Syntax} (h : Safe pan s) : Post pan s MessageOut (message syn s) := messageN_post _ s h

theorem extend_post {syn : Syntax} (h : Safe pan s) : Post pan s Any (extend syn s) := by
  refine Post.map (A := Any) (Post.terminated (B := Any) ?_ fun _ _ => optSemi_post) fun p hp => trivial
  refine Post.any (Post.pair (A := Any) (B := Any)
    (Post.any (Post.delimited (kw_post _) (fun _ _ => name_post) fun _ _ => gap0_post)) fun r hr => ?_)
  exact Post.any (Post.delimited (tok_post _) (fun t ht => Post.many1 fun u hu => Post.delimited gap0_post
    (fun v hv => messageField_post (h.suffix (hv.trans (hu.trans (ht.trans hr))))) fun _ _ => gap0_post) fun _ _ => tok_post _)

/-- Of an event of a file. -/
def FileEventOut : Event → Prop
  | .message m => MessageOut m
  | _ => True

theorem fileEvent_post {syn : Syntax} (h : Safe pan s) : Post pan s FileEventOut (fileEvent syn s) := by
  refine Post.alt ?_
  intro p hp
  simp only [List.mem_cons, List.not_mem_nil, or_false] at hp
  rcases hp with rfl | rfl | rfl | rfl | rfl | rfl | rfl | rfl | rfl
  · exact Post.map syntax_post fun _ _ => trivial
  · exact Post.map import_post fun _ _ => trivial
  · exact Post.map package_post fun _ _ => trivial
  · exact Post.map (message_post h) fun _ h => h
  · exact Post.map enumerator_post fun _ _ => trivial
  · exact Post.map rpcService_post fun _ _ => trivial
  · exact Post.map (extend_post h) fun _ _ => trivial
  · exact Post.value option_post trivial
  · exact Post.value br_post trivial

theorem fileApply_out {d : File} {e : Event} (hd : ∀ m ∈ d.desc.messages, MessageOut m) (he : FileEventOut e) :
    ∀ m ∈ (Event.apply d e).desc.messages, MessageOut m := by
  cases e with
  | message m =>
    intro g hg
    rcases List.mem_append.mp hg with hg | hg
    · exact hd g hg
    · rw [List.mem_singleton.mp hg]; exact he
  | _ => exact hd

theorem fileEvents_post {syn : Syntax} (h : Safe pan s) : Post pan s (fun F : File => ∀ m ∈ F.desc.messages, MessageOut m)
    (map (many0 (fileEvent syn)) (fun events => events.foldl Event.apply {}) s) := by
  refine Post.map (Post.many0 fun r hr => fileEvent_post (h.suffix hr)) fun l hl => ?_
  have key : ∀ (l : List Event) (d : File), (∀ m ∈ d.desc.messages, MessageOut m) → (∀ e ∈ l, FileEventOut e) →
      ∀ m ∈ (l.foldl Event.apply d).desc.messages, MessageOut m := by
    intro l
    induction l with
    | nil => intro d hd _; exact hd
    | cons e l ih => exact fun d hd h => ih _ (fileApply_out hd (h e (by simp))) fun e' he' => h e' (by simp [he'])
  exact key l {} (by intro m hm; cases hm) hl

theorem scanSyntax_post : Post False s Any (scanSyntax s) :=
  Post.map (A := Any) (Post.any (Post.separatedList0 (A := Any) (B := Any) (fun _ _ => Post.any (Post.many0 fun _ _ => Post.anychar))
    fun _ _ => syntax_post)) fun _ _ => trivial

end QP.Pbrs.Parse
