import Verif.Proofs.Paths
import Verif.Proofs.Enums
set_option linter.unusedVariables false
/-!
# The modules that the compiler notes are those where the declarations are
-/

namespace QP.Rust
open QP.Pbrs Grammar

theorem word_nodot {w : Str} (h : Word w) : '.' ∉ w := by
  obtain ⟨c, cs, rfl, hc, hcs⟩ := h
  have hw : ∀ c : Char, WordChar c → c ≠ '.' := by
    rintro c (h | h) rfl
    · revert h; decide
    · revert h; decide
  intro hm
  rcases List.mem_cons.mp hm with rfl | hm
  · revert hc
    unfold Letter
    decide
  · exact hw '.' (hcs '.' hm) rfl

theorem segments_child {q name : Str} (h : Word name) : segments (q ++ ".mod_".toList ++ name) = segments q ++ [c! "mod_" ++ name] := by
  have e : q ++ ".mod_".toList ++ name = q ++ '.' :: (c! "mod_" ++ name) := by
    have : ".mod_".toList = '.' :: (c! "mod_") := by decide +kernel
    rw [this]
    simp
  have hn : '.' ∉ (c! "mod_" ++ name) := by
    intro hm
    rcases List.mem_append.mp hm with hm | hm
    · revert hm; decide
    · exact word_nodot h hm
  unfold segments
  rw [e, splitDot_dotted, List.filter_append, splitDot_of_no_dot hn]
  rfl

/-- The modules that are noted in the messages of a tree. -/
theorem modules_setPackageAll (js : List Nat) : ∀ (package module : Str) (ms : List Message) (j : Nat) (x : Message),
    (∀ m ∈ ms, MessageNamed m) → ((Message.setPackageAll package module ms)[j]?.bind fun m => m.descend js) = some x →
    x.imported = false ∧
    segments x.module = segments module ++ (namesAlong ms (j :: js)).dropLast.map (c! "mod_" ++ ·) ∧
    (∀ o ∈ x.oneofs, o.imported = false ∧ segments o.module = segments module ++ (namesAlong ms (j :: js)).map (c! "mod_" ++ ·)) ∧
    (∀ e ∈ x.enums, e.imported = false ∧ segments e.module = segments module ++ (namesAlong ms (j :: js)).map (c! "mod_" ++ ·)) := by
  induction js with
  | nil =>
    intro package module ms j x hN h
    rw [setPackageAll_getElem] at h
    cases hj : ms[j]? with
    | none => rw [hj] at h; cases h
    | some y =>
      rw [hj] at h
      obtain ⟨name, fields, oneofs, nums, names, imported, pkg, messages, enums, module', index⟩ := y
      simp only [Option.map_some, Message.setPackage, Option.bind_some, Message.descend, Option.some.injEq] at h
      subst h
      cases hN _ (List.mem_of_getElem? hj) with
      | mk hw hf ho he hm hi =>
        simp only [namesAlong, hj, List.dropLast_singleton, List.map_nil, List.append_nil, List.map_cons, true_and]
        refine ⟨hi.1, ?_, ?_⟩
        · intro o hoo
          obtain ⟨o', ho', rfl⟩ := List.mem_map.mp hoo
          exact ⟨(ho o' ho').imported, segments_child hw⟩
        · intro o hoo
          obtain ⟨o', ho', rfl⟩ := List.mem_map.mp hoo
          exact ⟨congrArg Enumerator.imported (he o' ho').others, segments_child hw⟩
  | cons k js ih =>
    intro package module ms j x hN h
    rw [setPackageAll_getElem] at h
    cases hj : ms[j]? with
    | none => rw [hj] at h; cases h
    | some y =>
      rw [hj] at h
      obtain ⟨name, fields, oneofs, nums, names, imported, pkg, messages, enums, module', index⟩ := y
      simp only [Option.map_some, Message.setPackage, Option.bind_some, Message.descend] at h
      cases hN _ (List.mem_of_getElem? hj) with
      | mk hw hf ho he hm hi =>
        have hne : namesAlong messages (k :: js) ≠ [] := by
          rw [setPackageAll_getElem] at h
          cases hk : messages[k]? with
          | none => rw [hk] at h; cases h
          | some y => simp [namesAlong, hk]
        have e : namesAlong ms (j :: k :: js) = name :: namesAlong messages (k :: js) := by rw [namesAlong, hj]
        obtain ⟨h1, h2, h3, h4⟩ := ih _ _ messages k x hm h
        rw [segments_child hw] at h2 h3 h4
        rw [e, List.dropLast_cons_of_ne_nil hne]
        refine ⟨h1, ?_, ?_, ?_⟩
        · rw [h2]; simp
        · intro o hoo; refine ⟨(h3 o hoo).1, ?_⟩; rw [(h3 o hoo).2]; simp
        · intro o hoo; refine ⟨(h4 o hoo).1, ?_⟩; rw [(h4 o hoo).2]; simp

/-- The names on the way to a message are those of the messages at the initial parts of its place. -/
theorem namesAlong_get (js : List Nat) : ∀ (ms : List Message) (j : Nat) (x : Message), (ms[j]?.bind fun m => m.descend js) = some x →
    (namesAlong ms (j :: js)).length = js.length + 1 ∧
    ∀ k, k ≤ js.length → ∃ y, (ms[j]?.bind fun m => m.descend (js.take k)) = some y ∧ (namesAlong ms (j :: js))[k]? = some y.name ∧
      (k < js.length → y.messages ≠ []) ∧ (k = js.length → y = x) := by
  induction js with
  | nil =>
    intro ms j x h
    cases hj : ms[j]? with
    | none => rw [hj] at h; cases h
    | some y =>
      rw [hj] at h
      cases h
      refine ⟨by simp [namesAlong, hj], ?_⟩
      intro k hk
      obtain rfl : k = 0 := by simpa using hk
      exact ⟨x, rfl, by simp [namesAlong, hj], fun h => absurd h (by simp), fun _ => rfl⟩
  | cons i js ih =>
    intro ms j x h
    cases hj : ms[j]? with
    | none => rw [hj] at h; cases h
    | some y =>
      rw [hj] at h
      have h : (y.messages[i]?.bind fun m => m.descend js) = some x := by
        cases y; exact h
      obtain ⟨h1, h2⟩ := ih _ _ _ h
      have e : namesAlong ms (j :: i :: js) = y.name :: namesAlong y.messages (i :: js) := by rw [namesAlong, hj]
      rw [e]
      refine ⟨by simp [h1], ?_⟩
      intro k hk
      cases k with
      | zero =>
        refine ⟨y, rfl, rfl, fun _ => ?_, fun h => absurd h (by simp)⟩
        intro hy
        rw [hy] at h
        cases h
      | succ k =>
        obtain ⟨z, hz, hn, h3, h4⟩ := h2 k (by simpa using hk)
        refine ⟨z, ?_, by simpa using hn, fun h => h3 (by simpa using h), fun h => h4 (by simpa using h)⟩
        rw [← hz]
        cases y
        rfl

/-- The names on the way to a message after renaming. -/
theorem namesAlong_renamed {ms ms' : List Message} {j : Nat} {js : List Nat} {x x' : Message}
    (hx : (ms[j]?.bind fun m => m.descend js) = some x) (hx' : (ms'[j]?.bind fun m => m.descend js) = some x')
    (hr : ∀ js y y', (ms[j]?.bind fun m => m.descend js) = some y → (ms'[j]?.bind fun m => m.descend js) = some y' →
      (y.messages ≠ [] → y'.name = y.name)) :
    (namesAlong ms' (j :: js)).dropLast = (namesAlong ms (j :: js)).dropLast ∧ (x'.name = x.name → namesAlong ms' (j :: js) = namesAlong ms (j :: js)) := by
  obtain ⟨l1, g1⟩ := namesAlong_get js _ _ _ hx
  obtain ⟨l2, g2⟩ := namesAlong_get js _ _ _ hx'
  have key : ∀ k, k < js.length → (namesAlong ms' (j :: js))[k]? = (namesAlong ms (j :: js))[k]? := by
    intro k hk
    obtain ⟨y, hy, hn, hne, _⟩ := g1 k (by omega)
    obtain ⟨y', hy', hn', _, _⟩ := g2 k (by omega)
    rw [hn, hn', hr _ y y' hy hy' (hne hk)]
  refine ⟨List.ext_getElem? fun k => ?_, fun hname => List.ext_getElem? fun k => ?_⟩
  · rw [List.getElem?_dropLast, List.getElem?_dropLast, l1, l2]
    split
    · exact key k (by omega)
    · rfl
  · rcases Nat.lt_trichotomy k js.length with h | rfl | h
    · exact key k h
    · obtain ⟨y, hy, hn, _, hl⟩ := g1 js.length (Nat.le_refl _)
      obtain ⟨y', hy', hn', _, hl'⟩ := g2 js.length (Nat.le_refl _)
      rw [hn, hn', hl rfl, hl' rfl, hname]
    · rw [List.getElem?_eq_none (by omega), List.getElem?_eq_none (by omega)]

theorem shell_facts {m m' : Message} (h : m'.shell = m.shell.sanitizeNames) :
    m'.name = sanitizeKeyword m.name ∧ m'.module = m.module ∧ m'.imported = m.imported ∧
      (∀ o ∈ m'.oneofs, ∃ o' ∈ m.oneofs, o.module = o'.module ∧ o.imported = o'.imported) ∧
      (∀ e ∈ m'.enums, ∃ e' ∈ m.enums, e.module = e'.module ∧ e.imported = e'.imported) := by
  cases m; cases m'
  simp only [Message.shell, Message.sanitizeNames, Message.mk.injEq] at h
  obtain ⟨h1, _, h3, _, _, h6, _, _, h9, h10, _⟩ := h
  refine ⟨h1, h10, h6, ?_, ?_⟩
  · intro o ho
    have : o.shell ∈ List.map OneOf.shell _ := List.mem_map_of_mem ho
    rw [h3] at this
    simp only [List.mem_map] at this
    obtain ⟨_, ⟨o', ho', rfl⟩, h⟩ := this
    exact ⟨o', ho', (congrArg OneOf.module h).symm, (congrArg OneOf.imported h).symm⟩
  · intro o ho
    have : o.core ∈ List.map Enumerator.core _ := List.mem_map_of_mem ho
    rw [h9] at this
    simp only [List.mem_map] at this
    obtain ⟨_, ⟨o', ho', rfl⟩, h⟩ := this
    exact ⟨o', ho', (congrArg Enumerator.module h).symm, (congrArg Enumerator.imported h).symm⟩

/-- Modules are as noted, for a file whose messages with declarations in them are not renamed. -/
theorem located {path : FileDescriptor → FieldType → Str} {cfg : Config} {F D D' : FileDescriptor} {ms : List Message} {es : List Enumerator}
    (hM : ∀ m ∈ F.messages, MessageNamed m) (hE : ∀ e ∈ F.enums, EnumNamed e) (h1 : D.messages = F.setPackages.messages ++ ms)
    (hms : ∀ m ∈ ms, m.imported = true) (h2 : D.enums = F.setPackages.enums ++ es) (hes : ∀ e ∈ es, e.imported = true)
    (h : D.compile path cfg = .ok D') (hk : ∀ idx m, F.getMessage idx = some m → Declares m → sanitizeKeyword m.name = m.name) :
    Located (D'.printed cfg) (segments F.module) := by
  have hmsgs : (D'.printed cfg).messages = D'.messages := by unfold FileDescriptor.printed; split <;> rfl
  have henums : (D'.printed cfg).enums = D'.enums := by unfold FileDescriptor.printed; split <;> rfl
  obtain ⟨hs, hen, _⟩ := compile_shells h
  -- a message of the compiled file, before compiling and as parsed
  have hback : ∀ i is m', Own (D'.printed cfg) (i :: is) → (D'.printed cfg).getMessage (i :: is) = some m' →
      ∃ m f, F.setPackages.getMessage (i :: is) = some m ∧ F.getMessage (i :: is) = some f ∧ m'.shell = m.shell.sanitizeNames ∧
        (∃ p q, m = f.setPackage p q) := by
    intro i is m' ho hm'
    obtain ⟨_, _, t, he, ht, hi⟩ := ho
    cases he
    rw [hmsgs] at ht
    have hm' : D'.getMessage (i :: is) = some m' := by rw [← hm']; unfold FileDescriptor.getMessage; rw [hmsgs]
    have ht0 := hs [i]
    rw [show D'.getMessage [i] = some t by rw [FileDescriptor.getMessage, ht]; rfl] at ht0
    obtain ⟨t0, ht0, hts⟩ := Option.map_eq_some_iff.mp ht0.symm
    have ht1 : D.messages[i]? = some t0 := by
      rw [FileDescriptor.getMessage] at ht0
      cases hd : D.messages[i]? with
      | none => rw [hd] at ht0; cases ht0
      | some z => rw [hd] at ht0; cases ht0; rfl
    have hlt : i < F.setPackages.messages.length := by
      rcases Nat.lt_or_ge i F.setPackages.messages.length with h | h
      · exact h
      · rw [h1, List.getElem?_append_right h] at ht1
        have := hms t0 (List.mem_of_getElem? ht1)
        rw [← (shell_facts hts.symm).2.2.1, hi] at this
        cases this
    have hm0 := hs (i :: is)
    rw [hm'] at hm0
    obtain ⟨m, hm, hsh⟩ := Option.map_eq_some_iff.mp hm0.symm
    have hm1 : F.setPackages.getMessage (i :: is) = some m := by
      rw [← hm]
      simp only [FileDescriptor.getMessage]
      rw [h1, List.getElem?_append_left hlt]
    obtain ⟨f, p, q, hf, hfm⟩ := descend_setPackageAll is F.package F.module F.messages i m hm1
    exact ⟨m, f, hm1, hf, hsh.symm, p, q, hfm⟩
  -- the names on the way to it
  have hnames : ∀ i is m', Own (D'.printed cfg) (i :: is) → (D'.printed cfg).getMessage (i :: is) = some m' →
      (namesAlong (D'.printed cfg).messages (i :: is)).dropLast = (namesAlong F.messages (i :: is)).dropLast ∧
      (m'.enums ≠ [] ∨ m'.oneofs ≠ [] → namesAlong (D'.printed cfg).messages (i :: is) = namesAlong F.messages (i :: is)) := by
    intro i is m' ho hm'
    obtain ⟨m, f, hm, hf, hsh, p, q, hpq⟩ := hback i is m' ho hm'
    have hkey : ∀ js y y', (F.messages[i]?.bind fun m => m.descend js) = some y →
        ((D'.printed cfg).messages[i]?.bind fun m => m.descend js) = some y' → Declares y → y'.name = y.name := by
      intro js y y' hy hy' hd
      have ho' : Own (D'.printed cfg) (i :: js) := by
        obtain ⟨_, _, t, he, ht, hi⟩ := ho
        cases he
        exact ⟨i, js, t, rfl, ht, hi⟩
      obtain ⟨m2, f2, hm2, hf2, hsh2, p2, q2, hpq2⟩ := hback i js y' ho' hy'
      have : f2 = y := by
        have e : F.getMessage (i :: js) = some y := hy
        rw [e] at hf2; cases hf2; rfl
      subst this
      rw [(shell_facts hsh2).1, hpq2]
      have : (f2.setPackage p2 q2).name = f2.name := by cases f2; rfl
      rw [this]
      exact hk _ _ hf2 hd
    obtain ⟨g1, g2⟩ := namesAlong_renamed (show (F.messages[i]?.bind fun m => m.descend is) = some f from hf)
      (show ((D'.printed cfg).messages[i]?.bind fun m => m.descend is) = some m' from hm') (fun js y y' hy hy' hne => hkey js y y' hy hy' (Or.inl hne))
    refine ⟨g1, fun hne => g2 (hkey is f m' hf hm' ?_)⟩
    obtain ⟨_, _, _, k1, k2⟩ := shell_facts hsh
    rcases hne with hne | hne
    · obtain ⟨e, he⟩ := List.exists_mem_of_ne_nil _ hne
      obtain ⟨e', he', _⟩ := k2 e he
      refine Or.inr (Or.inl fun hh => ?_)
      rw [hpq] at he'
      cases f
      simp only [Message.setPackage] at he' hh
      rw [hh] at he'
      cases he'
    · obtain ⟨e, he⟩ := List.exists_mem_of_ne_nil _ hne
      obtain ⟨e', he', _⟩ := k1 e he
      refine Or.inr (Or.inr fun hh => ?_)
      rw [hpq] at he'
      cases f
      simp only [Message.setPackage] at he' hh
      rw [hh] at he'
      cases he'
  have hall : ∀ i is m', Own (D'.printed cfg) (i :: is) → (D'.printed cfg).getMessage (i :: is) = some m' →
      m'.imported = false ∧ segments m'.module = segments F.module ++ home (D'.printed cfg) (i :: is) ∧
      (∀ e ∈ m'.enums, e.imported = false ∧ segments e.module = segments F.module ++ inner (D'.printed cfg) (i :: is)) ∧
      (∀ o ∈ m'.oneofs, o.imported = false ∧ segments o.module = segments F.module ++ inner (D'.printed cfg) (i :: is)) := by
    intro i is m' ho hm'
    obtain ⟨m, f, hm, hf, hsh, p, q, hpq⟩ := hback i is m' ho hm'
    obtain ⟨n1, n2⟩ := hnames i is m' ho hm'
    obtain ⟨a1, a2, a3, a4⟩ := modules_setPackageAll is F.package F.module F.messages i m hM hm
    obtain ⟨_, b2, b3, b4, b5⟩ := shell_facts hsh
    refine ⟨by rw [b3, a1], by rw [b2, a2, home, n1], ?_, ?_⟩
    · intro e he
      obtain ⟨e', he', c1, c2⟩ := b5 e he
      rw [c1, c2, (a4 e' he').1, (a4 e' he').2, inner, n2 (Or.inl (List.ne_nil_of_mem he))]
      exact ⟨rfl, rfl⟩
    · intro e he
      obtain ⟨e', he', c1, c2⟩ := b4 e he
      rw [c1, c2, (a3 e' he').1, (a3 e' he').2, inner, n2 (Or.inr (List.ne_nil_of_mem he))]
      exact ⟨rfl, rfl⟩
  have hcons : ∀ idx, Own (D'.printed cfg) idx → ∃ i is, idx = i :: is := fun idx ⟨i, is, _, h, _⟩ => ⟨i, is, h⟩
  refine ⟨?_, ?_, ?_, ?_⟩
  · intro idx m ho hm
    obtain ⟨i, is, rfl⟩ := hcons idx ho
    exact ⟨(hall i is m ho hm).1, (hall i is m ho hm).2.1⟩
  · intro e he hi
    rw [henums] at he
    have : e.core ∈ D'.enums.map Enumerator.core := List.mem_map_of_mem he
    rw [hen] at this
    obtain ⟨e0, he0, hc⟩ := List.mem_map.mp this
    have i1 := congrArg Enumerator.imported hc
    have i1 : e0.imported = e.imported := i1
    have i2 := congrArg Enumerator.module hc
    have i2 : e0.module = e.module := i2
    rw [h2] at he0
    rcases List.mem_append.mp he0 with he0 | he0
    · simp only [FileDescriptor.setPackages] at he0
      obtain ⟨x, _, rfl⟩ := List.mem_map.mp he0
      rw [← i2]; rfl
    · have := hes _ he0
      rw [i1, hi] at this
      cases this
  · intro idx m ho hm
    obtain ⟨i, is, rfl⟩ := hcons idx ho
    exact (hall i is m ho hm).2.2.1
  · intro idx m ho hm
    obtain ⟨i, is, rfl⟩ := hcons idx ho
    exact (hall i is m ho hm).2.2.2

end QP.Rust
