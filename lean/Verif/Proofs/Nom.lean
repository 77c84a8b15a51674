import Verif.Model.Pbrs.Nom
/-!
# Facts about the parser combinators
-/

set_option linter.unusedVariables false

namespace QP.Pbrs.Nom

variable {α β γ : Type}

/-! ## Results of the combinators -/

theorem andThen_ok {p : Parser α} {q : α → Parser β} {s r : Str} {a : α} (h : p s = .ok a r) : andThen p q s = q a r := by
  simp only [andThen, h]

theorem andThen_err {p : Parser α} {q : α → Parser β} {s : Str} (h : p s = .err) : andThen p q s = .err := by
  simp only [andThen, h]

theorem map_ok {p : Parser α} {g : α → β} {s r : Str} {a : α} (h : p s = .ok a r) : map p g s = .ok (g a) r := by
  simp only [map, andThen, give, h]

theorem map_err {p : Parser α} {g : α → β} {s : Str} (h : p s = .err) : map p g s = .err := by
  simp only [map, andThen, h]

theorem value_ok {p : Parser α} {b : β} {s r : Str} {a : α} (h : p s = .ok a r) : value b p s = .ok b r := map_ok h

theorem value_err {p : Parser α} {b : β} {s : Str} (h : p s = .err) : value b p s = .err := map_err h

theorem mapRes_ok {p : Parser α} {g : α → Res β} {s r t : Str} {a : α} {b : β} (h : p s = .ok a r) (hg : g a = .ok b t) :
    mapRes p g s = .ok b r := by
  simp only [mapRes, andThen, h, hg]

theorem mapRes_err {p : Parser α} {g : α → Res β} {s : Str} (h : p s = .err) : mapRes p g s = .err := by
  simp only [mapRes, andThen, h]

theorem pair_ok {p : Parser α} {q : Parser β} {s r t : Str} {a : α} {b : β} (h : p s = .ok a r) (h2 : q r = .ok b t) :
    pair p q s = .ok (a, b) t := by
  rw [pair, andThen_ok h, map_ok h2]

theorem pair_err {p : Parser α} {q : Parser β} {s : Str} (h : p s = .err) : pair p q s = .err := andThen_err h

theorem pair_err2 {p : Parser α} {q : Parser β} {s r : Str} {a : α} (h : p s = .ok a r) (h2 : q r = .err) :
    pair p q s = .err := by
  rw [pair, andThen_ok h, map_err h2]

theorem preceded_ok {p : Parser α} {q : Parser β} {s r : Str} {a : α} (h : p s = .ok a r) : preceded p q s = q r :=
  andThen_ok h

theorem preceded_err {p : Parser α} {q : Parser β} {s : Str} (h : p s = .err) : preceded p q s = .err := andThen_err h

theorem terminated_ok {p : Parser α} {q : Parser β} {s r t : Str} {a : α} {b : β} (h : p s = .ok a r)
    (h2 : q r = .ok b t) : terminated p q s = .ok a t := by
  rw [terminated, andThen_ok h, map_ok h2]

theorem terminated_err {p : Parser α} {q : Parser β} {s : Str} (h : p s = .err) : terminated p q s = .err := andThen_err h

theorem terminated_err2 {p : Parser α} {q : Parser β} {s r : Str} {a : α} (h : p s = .ok a r) (h2 : q r = .err) :
    terminated p q s = .err := by
  rw [terminated, andThen_ok h, map_err h2]

theorem delimited_ok {p : Parser α} {q : Parser β} {r : Parser γ} {s t u v : Str} {a : α} {b : β} {c : γ}
    (h : p s = .ok a t) (h2 : q t = .ok b u) (h3 : r u = .ok c v) : delimited p q r s = .ok b v := by
  rw [delimited, preceded_ok h, terminated_ok h2 h3]

theorem delimited_err {p : Parser α} {q : Parser β} {r : Parser γ} {s : Str} (h : p s = .err) :
    delimited p q r s = .err := preceded_err h

theorem delimited_err2 {p : Parser α} {q : Parser β} {r : Parser γ} {s t : Str} {a : α} (h : p s = .ok a t)
    (h2 : q t = .err) : delimited p q r s = .err := by
  rw [delimited, preceded_ok h, terminated_err h2]

theorem delimited_err3 {p : Parser α} {q : Parser β} {r : Parser γ} {s t u : Str} {a : α} {b : β} (h : p s = .ok a t)
    (h2 : q t = .ok b u) (h3 : r u = .err) : delimited p q r s = .err := by
  rw [delimited, preceded_ok h, terminated_err2 h2 h3]

theorem separatedPair_ok {p : Parser α} {q : Parser β} {r : Parser γ} {s t u v : Str} {a : α} {b : β} {c : γ}
    (h : p s = .ok a t) (h2 : q t = .ok b u) (h3 : r u = .ok c v) : separatedPair p q r s = .ok (a, c) v := by
  rw [separatedPair, pair_ok h (by rw [preceded_ok h2, h3])]

theorem separatedPair_err {p : Parser α} {q : Parser β} {r : Parser γ} {s : Str} (h : p s = .err) :
    separatedPair p q r s = .err := pair_err h

theorem separatedPair_err2 {p : Parser α} {q : Parser β} {r : Parser γ} {s t : Str} {a : α} (h : p s = .ok a t)
    (h2 : q t = .err) : separatedPair p q r s = .err := pair_err2 h (preceded_err h2)

theorem separatedPair_err3 {p : Parser α} {q : Parser β} {r : Parser γ} {s t u : Str} {a : α} {b : β}
    (h : p s = .ok a t) (h2 : q t = .ok b u) (h3 : r u = .err) : separatedPair p q r s = .err :=
  pair_err2 h (by rw [preceded_ok h2, h3])

theorem alt_ok {p : Parser α} {ps : List (Parser α)} {s r : Str} {a : α} (h : p s = .ok a r) :
    alt (p :: ps) s = .ok a r := by
  simp only [alt, h]

theorem alt_err {p : Parser α} {ps : List (Parser α)} {s : Str} (h : p s = .err) : alt (p :: ps) s = alt ps s := by
  simp only [alt, h]

theorem alt_nil {s : Str} : alt ([] : List (Parser α)) s = .err := rfl

theorem opt_ok {p : Parser α} {s r : Str} {a : α} (h : p s = .ok a r) : opt p s = .ok (some a) r := by
  simp only [opt, h]

theorem opt_err {p : Parser α} {s : Str} (h : p s = .err) : opt p s = .ok none s := by
  simp only [opt, h]

theorem recognize_ok {p : Parser α} {s t r : Str} {a : α} (h : p (t ++ r) = .ok a r) (hs : s = t ++ r) :
    recognize p s = .ok t r := by
  subst hs
  simp only [recognize, h, List.length_append, Nat.add_sub_cancel, List.take_left]

theorem recognize_err {p : Parser α} {s : Str} (h : p s = .err) : recognize p s = .err := by
  simp only [recognize, h]

theorem verify_ok {p : Parser α} {ok : α → Bool} {s r : Str} {a : α} (h : p s = .ok a r) (h2 : ok a = true) :
    verify p ok s = .ok a r := by
  simp only [verify, h, h2, if_true]

theorem verify_err {p : Parser α} {ok : α → Bool} {s : Str} (h : p s = .err) : verify p ok s = .err := by
  simp only [verify, h]

theorem tok_ok (k r : Str) : tok k (k ++ r) = .ok k r := by
  have h : k.isPrefixOf (k ++ r) = true := List.isPrefixOf_iff_prefix.mpr (List.prefix_append k r)
  simp only [tok, h, if_true, List.drop_left]

theorem tok_err {k s : Str} (h : ¬ k <+: s) : tok k s = .err := by
  have h : k.isPrefixOf s = false := by
    rw [← Bool.not_eq_true, List.isPrefixOf_iff_prefix]; exact h
  simp only [tok, h]; rfl

/-- A keyword is not there if the first characters differ. -/
theorem tok_head {c : Char} {k s : Str} (h : s.head? ≠ some c) : tok (c :: k) s = .err := by
  apply tok_err
  rintro ⟨t, rfl⟩
  exact h rfl

theorem takeUntil_ok {pat a r : Str} (hp : pat ≠ []) (h : ¬ pat <:+: a ++ pat.dropLast) :
    takeUntil pat (a ++ pat ++ r) = .ok a (pat ++ r) := by
  have key : splitAt? pat (a ++ pat ++ r) = some (a, pat ++ r) := by
    induction a with
    | nil =>
      cases pat with
      | nil => exact absurd rfl hp
      | cons c cs =>
        have : (c :: cs).isPrefixOf (c :: (cs ++ r)) = true :=
          List.isPrefixOf_iff_prefix.mpr ⟨r, rfl⟩
        simp only [List.nil_append, List.cons_append, splitAt?, this, if_true]
    | cons c cs ih =>
      have h1 : ¬ pat <:+: cs ++ pat.dropLast := fun h2 => h (h2.trans ⟨[c], [], by simp⟩)
      have h2 : pat.isPrefixOf (c :: (cs ++ pat ++ r)) = false := by
        rw [← Bool.not_eq_true, List.isPrefixOf_iff_prefix]
        intro h3
        apply h
        have h4 : pat <+: (c :: cs) ++ pat.dropLast := by
          have e : pat = pat.dropLast ++ [pat.getLast hp] := (List.dropLast_concat_getLast hp).symm
          have h5 : (c :: cs) ++ pat.dropLast <+: c :: (cs ++ pat ++ r) := by
            refine ⟨pat.getLast hp :: r, ?_⟩
            have e2 : (c :: cs) ++ pat.dropLast ++ pat.getLast hp :: r =
                c :: (cs ++ (pat.dropLast ++ [pat.getLast hp]) ++ r) := by simp
            rw [e2, ← e]
          refine List.prefix_of_prefix_length_le h3 h5 ?_
          have := List.length_pos_iff.mpr hp
          simp only [List.length_append, List.length_cons, List.length_dropLast]; omega
        exact h4.isInfix
      simp only [List.cons_append, splitAt?, h2]
      rw [ih h1]; rfl
  rw [takeUntil, key]

/-- For one character. -/
theorem takeUntil_char {c : Char} {a r : Str} (h : c ∉ a) : takeUntil [c] (a ++ c :: r) = .ok a (c :: r) := by
  have := takeUntil_ok (pat := [c]) (a := a) (r := r) (by simp) (by
    rintro ⟨x, y, e⟩
    simp at e
    exact h (by rw [← e]; simp))
  simpa using this

theorem takeWhile1_ok {ok : Char → Bool} {a r : Str} (ha : a ≠ []) (h : ∀ c ∈ a, ok c = true)
    (hr : ∀ c, r.head? = some c → ok c = false) : takeWhile1 ok (a ++ r) = .ok a r := by
  have h1 : (a ++ r).takeWhile ok = a := by
    rw [List.takeWhile_append_of_pos h]
    cases r with
    | nil => simp
    | cons c cs => simp [hr c rfl]
  have h2 : (a ++ r).dropWhile ok = r := by
    rw [List.dropWhile_append_of_pos h]
    cases r with
    | nil => simp
    | cons c cs => simp [hr c rfl]
  have h3 : a.isEmpty = false := by cases a <;> simp_all
  simp only [takeWhile1, h1, h2, h3]; rfl

theorem takeWhile1_err {ok : Char → Bool} {r : Str} (hr : ∀ c, r.head? = some c → ok c = false) :
    takeWhile1 ok r = .err := by
  have : (r.takeWhile ok).isEmpty = true := by
    cases r with
    | nil => rfl
    | cons c cs => simp [hr c rfl]
  simp only [takeWhile1, this, if_true]

/-! ## The loops -/

theorem many0N_fuel (p : Parser α) : ∀ (n m : Nat) (s : Str), s.length < n → s.length < m → many0N p n s = many0N p m s := by
  intro n
  induction n with
  | zero => intro m s h; omega
  | succ n ih =>
    intro m s hn hm
    cases m with
    | zero => omega
    | succ m =>
      simp only [many0N]
      cases p s with
      | err => rfl
      | panic => rfl
      | ok a r =>
        simp only
        split
        · rw [ih m r (by omega) (by omega)]
        · rfl

/-- The equation of `many0`. -/
theorem many0_eq (p : Parser α) (s : Str) : many0 p s =
    match p s with
    | .err => .ok [] s
    | .panic => .panic
    | .ok a r =>
      if r.length < s.length then
        match many0 p r with
        | .ok as r' => .ok (a :: as) r'
        | .err => .err
        | .panic => .panic
      else .err := by
  rw [many0]
  simp only [many0N]
  cases p s with
  | err => rfl
  | panic => rfl
  | ok a r =>
    simp only
    split
    · rw [many0, many0N_fuel p s.length (r.length + 1) r (by omega) (by omega)]; rfl
    · rfl

theorem many0_nil {p : Parser α} {s : Str} (h : p s = .err) : many0 p s = .ok [] s := by
  rw [many0_eq]; simp only [h]

theorem many0_cons {p : Parser α} {s r t : Str} {a : α} {as : List α} (h : p s = .ok a r) (hl : r.length < s.length)
    (h2 : many0 p r = .ok as t) : many0 p s = .ok (a :: as) t := by
  rw [many0_eq]; simp only [h, hl, if_true, h2]

theorem many1_ok {p : Parser α} {s r t : Str} {a : α} {as : List α} (h : p s = .ok a r)
    (h2 : many0 p r = .ok as t) : many1 p s = .ok (a :: as) t := by
  simp only [many1, h, h2]

theorem many1_err {p : Parser α} {s : Str} (h : p s = .err) : many1 p s = .err := by
  simp only [many1, h]

theorem many0_congr {p q : Parser α} {s : Str} (h : ∀ r, r.length ≤ s.length → p r = q r) : many0 p s = many0 q s := by
  induction hn : s.length using Nat.strongRecOn generalizing s with
  | _ n ih =>
    rw [many0_eq p, many0_eq q, h s (Nat.le_refl _)]
    cases q s with
    | err => rfl
    | panic => rfl
    | ok a r =>
      simp only
      split
      · rename_i hl
        rw [ih r.length (by omega) (fun t ht => h t (by omega)) rfl]
      · rfl

theorem separatedN_nil {sep : Parser β} {p : Parser α} {n : Nat} {s : Str} (h : sep s = .err) :
    separatedN sep p (n + 1) s = .ok [] s := by
  simp only [separatedN, h]

theorem separatedN_cons {sep : Parser β} {p : Parser α} {n : Nat} {s r t u : Str} {a : α} {b : β} {as : List α}
    (h : sep s = .ok b r) (hl : r.length < s.length) (h2 : p r = .ok a t) (h3 : separatedN sep p n t = .ok as u) :
    separatedN sep p (n + 1) s = .ok (a :: as) u := by
  simp only [separatedN, h, hl, if_true, h2, h3]

theorem separatedList1_ok {sep : Parser β} {p : Parser α} {s r t : Str} {a : α} {as : List α} (h : p s = .ok a r)
    (h2 : separatedN sep p (r.length + 1) r = .ok as t) : separatedList1 sep p s = .ok (a :: as) t := by
  rw [separatedList1, andThen_ok h, map_ok h2]

theorem separatedList1_err {sep : Parser β} {p : Parser α} {s : Str} (h : p s = .err) :
    separatedList1 sep p s = .err := andThen_err h

/-! ## What is true of every result -/

/-- Of a result of parsing `s`: the rest is a suffix of `s` and the value satisfies `A`; a panic only if `pan`. -/
def Post (pan : Prop) (s : Str) (A : α → Prop) : Res α → Prop
  | .ok a r => r <:+ s ∧ A a
  | .err => True
  | .panic => pan

variable {pan : Prop} {s : Str}

theorem Post.mono {A B : α → Prop} {x : Res α} (h : Post pan s A x) (hAB : ∀ a, A a → B a) : Post pan s B x := by
  cases x with
  | ok a r => exact ⟨h.1, hAB a h.2⟩
  | err => trivial
  | panic => exact h

theorem Post.andThen {p : Parser α} {q : α → Parser β} {A : α → Prop} {B : β → Prop} (h : Post pan s A (p s))
    (h2 : ∀ a r, r <:+ s → A a → Post pan r B (q a r)) : Post pan s B (andThen p q s) := by
  simp only [Nom.andThen]
  cases hp : p s with
  | err => trivial
  | panic => rw [hp] at h; exact h
  | ok a r =>
    rw [hp] at h
    have := h2 a r h.1 h.2
    simp only
    cases hq : q a r with
    | err => trivial
    | panic => rw [hq] at this; exact this
    | ok b t => rw [hq] at this; exact ⟨this.1.trans h.1, this.2⟩

theorem Post.give {A : α → Prop} {a : α} (h : A a) : Post pan s A (give a s) := ⟨List.suffix_refl s, h⟩

theorem Post.map {p : Parser α} {g : α → β} {A : α → Prop} {B : β → Prop} (h : Post pan s A (p s))
    (h2 : ∀ a, A a → B (g a)) : Post pan s B (map p g s) :=
  Post.andThen h fun a r _ ha => Post.give (h2 a ha)

theorem Post.value {p : Parser α} {b : β} {A : α → Prop} {B : β → Prop} (h : Post pan s A (p s)) (hb : B b) :
    Post pan s B (value b p s) := Post.map h fun _ _ => hb

theorem Post.mapRes {p : Parser α} {g : α → Res β} {A : α → Prop} {B : β → Prop} (h : Post pan s A (p s))
    (h2 : ∀ a, A a → (∀ b t, g a = .ok b t → B b) ∧ (g a = .panic → pan)) : Post pan s B (mapRes p g s) := by
  refine Post.andThen h fun a r _ ha => ?_
  have := h2 a ha
  cases hg : g a with
  | ok b t => exact ⟨List.suffix_refl r, this.1 b t hg⟩
  | err => trivial
  | panic => exact this.2 hg

theorem Post.pair {p : Parser α} {q : Parser β} {A : α → Prop} {B : β → Prop} (h : Post pan s A (p s))
    (h2 : ∀ r, r <:+ s → Post pan r B (q r)) : Post pan s (fun x => A x.1 ∧ B x.2) (pair p q s) :=
  Post.andThen h fun a r hr ha => Post.map (h2 r hr) fun b hb => ⟨ha, hb⟩

theorem Post.preceded {p : Parser α} {q : Parser β} {A : α → Prop} {B : β → Prop} (h : Post pan s A (p s))
    (h2 : ∀ r, r <:+ s → Post pan r B (q r)) : Post pan s B (preceded p q s) :=
  Post.andThen h fun a r hr ha => h2 r hr

theorem Post.terminated {p : Parser α} {q : Parser β} {A : α → Prop} {B : β → Prop} (h : Post pan s A (p s))
    (h2 : ∀ r, r <:+ s → Post pan r B (q r)) : Post pan s A (terminated p q s) :=
  Post.andThen h fun a r hr ha => Post.map (h2 r hr) fun b hb => ha

theorem Post.delimited {p : Parser α} {q : Parser β} {t : Parser γ} {A : α → Prop} {B : β → Prop} {C : γ → Prop}
    (h : Post pan s A (p s)) (h2 : ∀ r, r <:+ s → Post pan r B (q r)) (h3 : ∀ r, r <:+ s → Post pan r C (t r)) :
    Post pan s B (delimited p q t s) :=
  Post.preceded h fun r hr => Post.terminated (h2 r hr) fun u hu => h3 u (hu.trans hr)

theorem Post.separatedPair {p : Parser α} {q : Parser β} {t : Parser γ} {A : α → Prop} {B : β → Prop} {C : γ → Prop}
    (h : Post pan s A (p s)) (h2 : ∀ r, r <:+ s → Post pan r B (q r)) (h3 : ∀ r, r <:+ s → Post pan r C (t r)) :
    Post pan s (fun x => A x.1 ∧ C x.2) (separatedPair p q t s) :=
  Post.pair h fun r hr => Post.preceded (h2 r hr) fun u hu => h3 u (hu.trans hr)

theorem Post.tok (k : Str) {A : Str → Prop} (h : k <+: s → A k) : Post pan s A (tok k s) := by
  simp only [Nom.tok]
  split
  · rename_i hp; exact ⟨List.drop_suffix _ _, h (List.isPrefixOf_iff_prefix.mp hp)⟩
  · trivial

theorem Post.takeUntil (pat : Str) : Post pan s (fun a => a <+: s) (takeUntil pat s) := by
  have key : ∀ (s a r : Str), splitAt? pat s = some (a, r) → s = a ++ r := by
    intro s
    induction s with
    | nil => intro a r; simp only [splitAt?]; split <;> simp
    | cons c cs ih =>
      intro a r
      simp only [splitAt?]
      split
      · simp only [Option.some.injEq, Prod.mk.injEq]; rintro ⟨rfl, rfl⟩; rfl
      · cases h : splitAt? pat cs with
        | none => simp
        | some x =>
          simp only [Option.map_some, Option.some.injEq, Prod.mk.injEq]
          rintro ⟨rfl, rfl⟩
          rw [ih x.1 x.2 h]; rfl
  simp only [Nom.takeUntil]
  cases h : splitAt? pat s with
  | none => trivial
  | some x => exact ⟨⟨x.1, (key s x.1 x.2 h).symm⟩, ⟨x.2, (key s x.1 x.2 h).symm⟩⟩

theorem Post.takeWhile1 (ok : Char → Bool) : Post pan s (fun a => a ≠ [] ∧ ∀ c ∈ a, ok c = true) (takeWhile1 ok s) := by
  simp only [Nom.takeWhile1]
  split
  · trivial
  · rename_i h
    refine ⟨List.dropWhile_suffix _, ?_, ?_⟩
    · intro h2; rw [h2] at h; exact h rfl
    · exact fun c hc => List.all_eq_true.mp List.all_takeWhile c hc

theorem Post.notLineEnding : Post pan s (fun _ => True) (notLineEnding s) := by
  simp only [Nom.notLineEnding]
  have := List.dropWhile_suffix (l := s) (fun c => c != '\r' && c != '\n')
  split
  · rename_i h; rw [h] at this; exact ⟨this, trivial⟩
  · trivial
  · exact ⟨this, trivial⟩

theorem Post.anychar : Post pan s (fun _ => True) (anychar s) := by
  cases s with
  | nil => trivial
  | cons c r => exact ⟨⟨[c], rfl⟩, trivial⟩

theorem Post.alt {A : α → Prop} {ps : List (Parser α)} (h : ∀ p ∈ ps, Post pan s A (p s)) : Post pan s A (alt ps s) := by
  induction ps with
  | nil => trivial
  | cons p ps ih =>
    have h1 := h p (by simp)
    simp only [Nom.alt]
    cases hp : p s with
    | ok a r => rw [hp] at h1; exact h1
    | panic => rw [hp] at h1; exact h1
    | err => exact ih fun q hq => h q (by simp [hq])

theorem Post.opt {p : Parser α} {A : α → Prop} (h : Post pan s A (p s)) :
    Post pan s (fun x => ∀ a, x = some a → A a) (opt p s) := by
  simp only [Nom.opt]
  cases hp : p s with
  | ok a r => rw [hp] at h; exact ⟨h.1, by intro b hb; cases hb; exact h.2⟩
  | panic => rw [hp] at h; exact h
  | err => exact ⟨List.suffix_refl s, by intro b hb; cases hb⟩

theorem Post.recognize {p : Parser α} {A : α → Prop} (h : Post pan s A (p s)) :
    Post pan s (fun t => t <+: s) (recognize p s) := by
  simp only [Nom.recognize]
  cases hp : p s with
  | ok a r => rw [hp] at h; exact ⟨h.1, List.take_prefix _ _⟩
  | panic => rw [hp] at h; exact h
  | err => trivial

theorem Post.verify {p : Parser α} {A : α → Prop} {ok : α → Bool} (h : Post pan s A (p s)) :
    Post pan s A (verify p ok s) := by
  simp only [Nom.verify]
  cases hp : p s with
  | ok a r => rw [hp] at h; simp only; split; exact h; trivial
  | panic => rw [hp] at h; exact h
  | err => trivial

theorem Post.many0 {p : Parser α} {A : α → Prop} (h : ∀ r, r <:+ s → Post pan r A (p r)) :
    Post pan s (fun l => ∀ a ∈ l, A a) (many0 p s) := by
  induction hn : s.length using Nat.strongRecOn generalizing s with
  | _ n ih =>
    rw [many0_eq]
    have h1 := h s (List.suffix_refl s)
    cases hp : p s with
    | err => exact ⟨List.suffix_refl s, by intro a ha; cases ha⟩
    | panic => rw [hp] at h1; exact h1
    | ok a r =>
      rw [hp] at h1
      simp only
      split
      · rename_i hl
        have h2 := ih r.length (by omega) (s := r) (fun t ht => h t (ht.trans h1.1)) rfl
        cases hm : Nom.many0 p r with
        | err => trivial
        | panic => rw [hm] at h2; exact h2
        | ok as t =>
          rw [hm] at h2
          refine ⟨h2.1.trans h1.1, ?_⟩
          intro b hb
          rcases List.mem_cons.mp hb with rfl | hb
          · exact h1.2
          · exact h2.2 b hb
      · trivial

theorem Post.many1 {p : Parser α} {A : α → Prop} (h : ∀ r, r <:+ s → Post pan r A (p r)) :
    Post pan s (fun l => ∀ a ∈ l, A a) (many1 p s) := by
  simp only [Nom.many1]
  have h1 := h s (List.suffix_refl s)
  cases hp : p s with
  | err => trivial
  | panic => rw [hp] at h1; exact h1
  | ok a r =>
    rw [hp] at h1
    have h2 := Post.many0 (s := r) (fun t ht => h t (ht.trans h1.1))
    simp only
    cases hm : Nom.many0 p r with
    | err => trivial
    | panic => rw [hm] at h2; exact h2
    | ok as t =>
      rw [hm] at h2
      refine ⟨h2.1.trans h1.1, ?_⟩
      intro b hb
      rcases List.mem_cons.mp hb with rfl | hb
      · exact h1.2
      · exact h2.2 b hb

theorem Post.separatedN {sep : Parser β} {p : Parser α} {A : α → Prop} {B : β → Prop}
    (hs : ∀ r, r <:+ s → Post pan r B (sep r)) (h : ∀ r, r <:+ s → Post pan r A (p r)) (n : Nat) :
    Post pan s (fun l => ∀ a ∈ l, A a) (separatedN sep p n s) := by
  induction n generalizing s with
  | zero => trivial
  | succ n ih =>
    simp only [Nom.separatedN]
    have h1 := hs s (List.suffix_refl s)
    cases hp : sep s with
    | err => exact ⟨List.suffix_refl s, by intro a ha; cases ha⟩
    | panic => rw [hp] at h1; exact h1
    | ok b r =>
      rw [hp] at h1
      simp only
      split
      · have h2 := h r h1.1
        cases hq : p r with
        | err => exact ⟨List.suffix_refl s, by intro a ha; cases ha⟩
        | panic => rw [hq] at h2; exact h2
        | ok a t =>
          rw [hq] at h2
          have ht := h2.1.trans h1.1
          have h3 := ih (s := t) (fun u hu => hs u (hu.trans ht)) (fun u hu => h u (hu.trans ht))
          simp only
          cases hm : Nom.separatedN sep p n t with
          | err => trivial
          | panic => rw [hm] at h3; exact h3
          | ok as u =>
            rw [hm] at h3
            refine ⟨h3.1.trans ht, ?_⟩
            intro x hx
            rcases List.mem_cons.mp hx with rfl | hx
            · exact h2.2
            · exact h3.2 x hx
      · trivial

theorem Post.separatedList1 {sep : Parser β} {p : Parser α} {A : α → Prop} {B : β → Prop}
    (hs : ∀ r, r <:+ s → Post pan r B (sep r)) (h : ∀ r, r <:+ s → Post pan r A (p r)) :
    Post pan s (fun l => ∀ a ∈ l, A a) (separatedList1 sep p s) := by
  refine Post.andThen (h s (List.suffix_refl s)) fun a r hr ha => ?_
  refine Post.map (Post.separatedN (fun t ht => hs t (ht.trans hr)) (fun t ht => h t (ht.trans hr)) _) fun l hl => ?_
  intro x hx
  rcases List.mem_cons.mp hx with rfl | hx
  · exact ha
  · exact hl x hx

theorem Post.separatedList0 {sep : Parser β} {p : Parser α} {A : α → Prop} {B : β → Prop}
    (hs : ∀ r, r <:+ s → Post pan r B (sep r)) (h : ∀ r, r <:+ s → Post pan r A (p r)) :
    Post pan s (fun l => ∀ a ∈ l, A a) (separatedList0 sep p s) := by
  simp only [Nom.separatedList0]
  have h1 := h s (List.suffix_refl s)
  cases hp : p s with
  | err => exact ⟨List.suffix_refl s, by intro a ha; cases ha⟩
  | panic => rw [hp] at h1; exact h1
  | ok a r =>
    rw [hp] at h1
    have h2 := Post.map (g := fun as => a :: as) (B := fun l => ∀ x ∈ l, A x)
      (Post.separatedN (fun t ht => hs t (ht.trans h1.1)) (fun t ht => h t (ht.trans h1.1)) (r.length + 1)) (by
        intro l hl x hx
        rcases List.mem_cons.mp hx with rfl | hx
        · exact h1.2
        · exact hl x hx)
    simp only
    cases hm : Nom.map (Nom.separatedN sep p (r.length + 1)) (fun as => a :: as) r with
    | err => trivial
    | panic => rw [hm] at h2; exact h2
    | ok as t => rw [hm] at h2; exact ⟨h2.1.trans h1.1, h2.2⟩

end QP.Pbrs.Nom
