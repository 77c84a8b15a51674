import Verif.Proofs.ParserPost
/-!
# The recursive equations of the parser

The model bounds the nesting of maps and messages by the length of the input; the bound is never met.
-/

set_option linter.unusedVariables false

namespace QP.Pbrs.Parse
open Nom

variable {α β γ : Type}

theorem andThen_congr {p p' : Parser α} {q q' : α → Parser β} {s : Str} (h : p s = p' s)
    (h2 : ∀ a r, p' s = .ok a r → q a r = q' a r) : andThen p q s = andThen p' q' s := by
  simp only [andThen, h]
  cases hp : p' s with
  | ok a r => exact h2 a r hp
  | err => rfl
  | panic => rfl

theorem map_congr {p p' : Parser α} {g : α → β} {s : Str} (h : p s = p' s) : map p g s = map p' g s :=
  andThen_congr h fun _ _ _ => rfl

theorem terminated_congr {p p' : Parser α} {q : Parser β} {s : Str} (h : p s = p' s) : terminated p q s = terminated p' q s :=
  andThen_congr h fun _ _ _ => rfl

theorem preceded_congr {p : Parser α} {q q' : Parser β} {s : Str} (h : ∀ a r, p s = .ok a r → q r = q' r) :
    preceded p q s = preceded p q' s := andThen_congr rfl h

theorem delimited_congr {p : Parser α} {q q' : Parser β} {e : Parser γ} {s : Str} (h : ∀ a r, p s = .ok a r → q r = q' r) :
    delimited p q e s = delimited p q' e s := preceded_congr fun a r hr => terminated_congr (h a r hr)

theorem pair_congr {p p' : Parser α} {q q' : Parser β} {s : Str} (h : p s = p' s)
    (h2 : ∀ a r, p' s = .ok a r → q r = q' r) : pair p q s = pair p' q' s :=
  andThen_congr h fun a r hr => map_congr (h2 a r hr)

theorem alt_congr {ps qs : List (Parser α)} {p p' : Parser α} {s : Str} (h : p s = p' s) :
    alt (ps ++ p :: qs) s = alt (ps ++ p' :: qs) s := by
  induction ps with
  | nil => simp only [List.nil_append, alt, h]
  | cons q ps ih => simp only [List.cons_append, alt, ih]

theorem tok_inv {k s a r : Str} (h : tok k s = .ok a r) : s = k ++ r := by
  simp only [Nom.tok] at h
  split at h
  · rename_i hp
    cases h
    exact (List.prefix_iff_eq_append.mp (List.isPrefixOf_iff_prefix.mp hp)).symm
  · cases h

theorem Post.sub {p : Parser α} {A : α → Prop} {s r : Str} {a : α} (h : Post True s A (p s)) (hp : p s = .ok a r) :
    r <:+ s := by
  rw [hp] at h; exact h.1

/-- A keyword is consumed. -/
theorem kw_lt {k s r : Str} {q : Parser β} {x : Str × β} (hk : k ≠ []) (hq : ∀ s, Post True s Any (q s))
    (h : pair (tok k) q s = .ok x r) : r.length < s.length := by
  simp only [pair, andThen] at h
  split at h
  · rename_i a t ht
    have e := tok_inv ht
    have h2 : Post True t Any (map q (fun b => (a, b)) t) := Post.map (hq t) fun _ _ => trivial
    have h3 := (Post.sub h2 h).length_le
    have := List.length_pos_iff.mpr hk
    rw [e, List.length_append]; omega
  · cases h
  · cases h

theorem mapField_congr {ft ft' : Parser FieldType} {s : Str} (hs : ∀ r, Post True r Any (ft' r))
    (h : ∀ r, r.length < s.length → ft r = ft' r) : mapField ft s = mapField ft' s := by
  refine map_congr (delimited_congr fun a r hr => ?_)
  have hlt : r.length < s.length := kw_lt (by simp) (fun s => Post.any (Post.pair gap0_post fun _ _ =>
    Post.pair (tok_post _) fun _ _ => gap0_post)) hr
  refine pair_congr (h r hlt) fun b t ht => preceded_congr fun c u hu => h u ?_
  have h1 := (Post.sub (hs r) ht).length_le
  have h2 := (Post.sub (between_post _) hu).length_le
  omega

theorem fieldTypeN_fuel : ∀ (n m : Nat) (s : Str), s.length < n → s.length < m → fieldTypeN n s = fieldTypeN m s := by
  intro n
  induction n with
  | zero => intro m s h; omega
  | succ n ih =>
    intro m s hn hm
    cases m with
    | zero => omega
    | succ m =>
      simp only [fieldTypeN]
      exact alt_congr (mapField_congr (fun r => Post.any (fieldTypeN_post m r)) fun r hr => ih m r (by omega) (by omega))

/-- parser.rs 221-241: the recursive equation of `field_type`. -/
theorem fieldType_eq (s : Str) : fieldType s = alt (scalarTypes.map (fun p => value p.1 (tok p.2)) ++
      [mapField fieldType, map qualifiableName FieldType.messageOrEnum]) s := by
  show fieldTypeN (s.length + 1) s = _
  simp only [fieldTypeN]
  exact alt_congr (mapField_congr (fun r => Post.any fieldType_post) fun r hr => fieldTypeN_fuel _ _ r hr (by omega))

theorem messageEvent_congr {msg msg' : Parser Message} {syn : Syntax} {s : Str} (h : msg s = msg' s) :
    messageEvent msg syn s = messageEvent msg' syn s :=
  alt_congr (ps := [map reservedNums MessageEvent.reservedNums, map reservedNames MessageEvent.reservedNames,
    map (messageField syn) MessageEvent.field]) (map_congr h)

theorem messageBody_congr {msg msg' : Parser Message} {syn : Syntax} {s : Str}
    (h : ∀ r, r.length < s.length → msg r = msg' r) :
    map (terminated (pair (delimited (pair (tok (c! "message")) gap1) word gap0)
      (delimited (tok (c! "{")) (many0 (messageEvent msg syn)) (tok (c! "}")))) optSemi)
      (fun p => buildMessage p.1 p.2) s =
    map (terminated (pair (delimited (pair (tok (c! "message")) gap1) word gap0)
      (delimited (tok (c! "{")) (many0 (messageEvent msg' syn)) (tok (c! "}")))) optSemi)
      (fun p => buildMessage p.1 p.2) s := by
  refine map_congr (terminated_congr (pair_congr rfl fun a r hr => delimited_congr fun b t ht => many0_congr fun u hu =>
    messageEvent_congr (h u ?_)))
  have h2 := tok_inv ht
  have h3 : Post True s Any (delimited (pair (tok (c! "message")) gap1) word gap0 s) :=
    Post.any (Post.delimited (kw_post _) (fun _ _ => Post.any word_post) fun _ _ => gap0_post)
  have h4 := (Post.sub h3 hr).length_le
  rw [h2] at h4
  simp only [List.length_append, List.length_cons] at h4
  omega

theorem messageN_fuel (syn : Syntax) : ∀ (n m : Nat) (s : Str), s.length < n → s.length < m →
    messageN syn n s = messageN syn m s := by
  intro n
  induction n with
  | zero => intro m s h; omega
  | succ n ih =>
    intro m s hn hm
    cases m with
    | zero => omega
    | succ m =>
      simp only [messageN]
      exact messageBody_congr fun r hr => ih m r (by omega) (by omega)

/-- parser.rs 464-495: the recursive equation of `message`. -/
theorem message_eq (syn : Syntax) (s : Str) : message syn s =
    map (terminated (pair (delimited (pair (tok (c! "message")) gap1) word gap0)
      (delimited (tok (c! "{")) (many0 (messageEvent (message syn) syn)) (tok (c! "}")))) optSemi)
      (fun p => buildMessage p.1 p.2) s := by
  show messageN syn (s.length + 1) s = _
  simp only [messageN]
  exact messageBody_congr fun r hr => messageN_fuel syn _ _ r hr (by omega)

end QP.Pbrs.Parse
