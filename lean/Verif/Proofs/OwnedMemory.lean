import Verif.Spec.OwnedMemory
/-!
# The memory of owned wrappers: the invariant
-/

set_option linter.unusedVariables false

namespace QP.Gen
open QP.Pbrs

theorem put_same {α : Type} {f : Nat → α} {k : Nat} {x : α} : put f k x k = x := by simp [put]
theorem put_other {α : Type} {f : Nat → α} {k i : Nat} {x : α} (h : i ≠ k) : put f k x i = f i := by simp [put, h]

/-- Strings that point nowhere but into allocation `a`. -/
def Confined (a : Nat) (ls : List Leaf) : Prop := ∀ l ∈ ls, ∀ i off len, l = .slice i off len → i = a

theorem Leaf.read_congr {h h' : Nat → Option Bytes} {a : Nat} (he : h a = h' a) {l : Leaf} (hl : ∀ i off len, l = .slice i off len → i = a) :
    l.read h = l.read h' := by
  cases l with
  | own b => rfl
  | static b => rfl
  | slice i off len =>
    obtain rfl := hl i off len rfl
    simp only [Leaf.read, he]

theorem readLeaves_congr {h h' : Nat → Option Bytes} {a : Nat} (he : h a = h' a) : ∀ {ls : List Leaf}, Confined a ls → readLeaves h ls = readLeaves h' ls
  | [], _ => rfl
  | l :: ls, hl => by
    simp only [readLeaves, Leaf.read_congr he (hl l (List.mem_cons_self ..)), readLeaves_congr he (fun l' h' => hl l' (List.mem_cons_of_mem _ h'))]

theorem readLeaves_cons {h : Nat → Option Bytes} {l : Leaf} {ls : List Leaf} {ps : List Bytes} :
    readLeaves h (l :: ls) = .ok ps ↔ ∃ x xs, ps = x :: xs ∧ l.read h = .ok x ∧ readLeaves h ls = .ok xs := by
  simp only [readLeaves]
  cases hl : l.read h with
  | ok x =>
    cases hs : readLeaves h ls with
    | ok xs =>
      simp only [Out.ok.injEq]
      exact ⟨fun h => ⟨x, xs, h.symm, rfl, rfl⟩, fun ⟨_, _, h1, h2, h3⟩ => by rw [h1, h2, h3]⟩
    | _ => simp
  | _ => simp

theorem readLeaves_get {h : Nat → Option Bytes} : ∀ {ls : List Leaf} {ps : List Bytes}, readLeaves h ls = .ok ps → ∀ {i : Nat} {l : Leaf},
    ls[i]? = Option.some l → l.read h = .ok (ps.getD i [])
  | [], ps, _, i, l, hi => by simp at hi
  | l0 :: ls, ps, hr, i, l, hi => by
    obtain ⟨x, xs, rfl, h1, h2⟩ := readLeaves_cons.mp hr
    cases i with
    | zero => simp only [List.getElem?_cons_zero, Option.some.injEq] at hi; subst hi; simpa using h1
    | succ i => simp only [List.getElem?_cons_succ] at hi; simpa using readLeaves_get h2 hi

/-- What is stored reads as what is meant. -/
theorem stores_read {W : World} {V : Values} {old : List Leaf} {ps : List Bytes} (hr : readLeaves W.heap old = .ok ps) :
    ∀ {src : List Src} {ls : List Leaf}, (∀ s ∈ src, s.Lasting) → StoresAll W old src ls → readLeaves W.heap ls = .ok (src.map (Src.value V ps))
  | [], ls, _, h => by
    simp only [StoresAll] at h; subst h; rfl
  | s :: src, ls, hl, h => by
    obtain ⟨l, ls', rfl, h1, h2⟩ := h
    refine readLeaves_cons.mpr ⟨_, _, rfl, ?_, stores_read hr (fun s hs => hl s (List.mem_cons_of_mem _ hs)) h2⟩
    cases s with
    | keep i => exact readLeaves_get hr h1
    | own b => subst h1; rfl
    | static b => subst h1; rfl
    | borrow a off len => exact (hl _ (List.mem_cons_self ..)).elim

theorem stores_inside {W : World} {a : Nat} {old : List Leaf} (ho : Confined a old) :
    ∀ {src : List Src} {ls : List Leaf}, (∀ s ∈ src, s.Lasting) → StoresAll W old src ls → Confined a ls
  | [], ls, _, h => by
    simp only [StoresAll] at h; subst h; intro l hl; cases hl
  | s :: src, ls, hl, h => by
    obtain ⟨l, ls', rfl, h1, h2⟩ := h
    have ih := stores_inside ho (fun s hs => hl s (List.mem_cons_of_mem _ hs)) h2
    intro l' hl' i off len he
    rcases List.mem_cons.mp hl' with rfl | hl'
    · cases s with
      | keep j => exact ho l' (List.mem_of_getElem? h1) i off len he
      | own b => subst h1; cases he
      | static b => subst h1; cases he
      | borrow a off len => exact (hl _ (List.mem_cons_self ..)).elim
    · exact ih l' hl' i off len he

/-- A wrapper whose strings are its own. -/
structure Fine (W : World) (c : Cell) (p : Bytes × List Bytes) : Prop where
  buf : W.heap c.buf = Option.some p.1
  mine : W.vecs c.buf = false
  inside : Confined c.buf c.proto
  read : readLeaves W.heap c.proto = .ok p.2

structure Inv (W : World) (V : Values) : Prop where
  vecs : ∀ a, W.vecs a = true → V.vecs a = W.heap a ∧ ∃ b, W.heap a = Option.some b
  none : ∀ w, W.owned w = Option.none → V.owned w = Option.none
  some : ∀ w c, W.owned w = Option.some c → ∃ p, V.owned w = Option.some p ∧ Fine W c p
  apart : ∀ w w' c c', w ≠ w' → W.owned w = Option.some c → W.owned w' = Option.some c' → c.buf ≠ c'.buf

theorem inv_start : Inv World.start Values.start where
  vecs := fun a h => by simp [World.start] at h
  none := fun w h => rfl
  some := fun w c h => by simp [World.start] at h
  apart := fun w w' c c' _ h => by simp [World.start] at h

/-- A wrapper is not affected when other allocations change. -/
theorem Fine.frame {W W' : World} {c : Cell} {p : Bytes × List Bytes} (h : Fine W c p) (hh : W'.heap c.buf = W.heap c.buf) (hv : W'.vecs c.buf = false) : Fine W' c p where
  buf := hh.trans h.buf
  mine := hv
  inside := h.inside
  read := (readLeaves_congr hh h.inside).trans h.read

variable {C : Ctx}

theorem inv_step {W W' : World} {V : Values} {op : Op} (hi : Inv W V) (ht : op.Tame) (h : Step C W op W') : Inv W' (V.after C op) := by
  cases op with
  | vec a b =>
    obtain ⟨hn, rfl⟩ := h
    refine ⟨fun i hv => ?_, hi.none, fun w c hc => ?_, hi.apart⟩
    · simp only [Values.after, put] at hv ⊢
      by_cases h : i = a
      · subst h; simp
      · rw [if_neg h] at hv
        simp only [if_neg h]
        exact hi.vecs i hv
    · obtain ⟨p, hp, hf⟩ := hi.some w c hc
      have : c.buf ≠ a := fun h => by have := hf.buf; rw [h, hn] at this; cases this
      exact ⟨p, hp, hf.frame (put_other this) ((put_other this).trans hf.mine)⟩
  | dropVec a =>
    obtain ⟨hv, rfl⟩ := h
    refine ⟨fun i hv' => ?_, hi.none, fun w c hc => ?_, hi.apart⟩
    · simp only [Values.after, put] at hv' ⊢
      by_cases h : i = a
      · subst h; simp at hv'
      · rw [if_neg h] at hv'
        simp only [if_neg h]
        exact hi.vecs i hv'
    · obtain ⟨p, hp, hf⟩ := hi.some w c hc
      have : c.buf ≠ a := fun h => by have := hf.mine; rw [h, hv] at this; cases this
      exact ⟨p, hp, hf.frame (put_other this) ((put_other this).trans hf.mine)⟩
  | tryFrom w a idx =>
    obtain ⟨hv, hw, b, hb, h⟩ := h
    have hVa : (V.vecs a).getD [] = b := by rw [(hi.vecs a hv).1, hb]; rfl
    have hother : ∀ w' c', W.owned w' = Option.some c' → c'.buf ≠ a := fun w' c' hc' he => by
      obtain ⟨p, _, hf⟩ := hi.some w' c' hc'
      have := hf.mine
      rw [he, hv] at this; cases this
    rcases h with ⟨v, ls, hd, hB, rfl⟩ | ⟨⟨e, hd⟩, rfl⟩
    · simp only [Values.after, hVa, hd]
      have hin : Confined a ls := fun l hl i off len he => by
        rcases hB.2 l hl with ⟨o, n, h1⟩ | ⟨x, h1⟩
        · rw [h1] at he; cases he; rfl
        · rw [h1] at he; cases he
      refine ⟨fun i hv' => ?_, fun w' hn => ?_, fun w' c' hc' => ?_, fun w1 w2 c1 c2 hne h1 h2 => ?_⟩
      · dsimp only [put] at hv' ⊢
        by_cases h : i = a
        · simp [h] at hv'
        · rw [if_neg h] at hv' ⊢
          exact hi.vecs i hv'
      · dsimp only [put] at hn ⊢
        by_cases h : w' = w
        · simp [h] at hn
        · rw [if_neg h] at hn ⊢
          exact hi.none w' hn
      · dsimp only [put] at hc' ⊢
        by_cases h : w' = w
        · rw [if_pos h] at hc' ⊢
          cases hc'
          refine ⟨_, rfl, hb, put_same, hin, ?_⟩
          refine (readLeaves_congr (a := a) ?_ hin).trans hB.1
          simp [hb]
        · rw [if_neg h] at hc' ⊢
          obtain ⟨p, hp, hf⟩ := hi.some w' c' hc'
          exact ⟨p, hp, hf.frame rfl ((put_other (hother w' c' hc')).trans hf.mine)⟩
      · dsimp only [put] at h1 h2
        by_cases e1 : w1 = w
        · rw [if_pos e1] at h1
          have e2 : w2 ≠ w := fun h => hne (e1.trans h.symm)
          rw [if_neg e2] at h2
          cases h1
          exact fun h => hother w2 c2 h2 h.symm
        · rw [if_neg e1] at h1
          by_cases e2 : w2 = w
          · rw [if_pos e2] at h2
            cases h2
            exact hother w1 c1 h1
          · rw [if_neg e2] at h2
            exact hi.apart w1 w2 c1 c2 hne h1 h2
    · simp only [Values.after, hVa, hd]
      refine ⟨fun i hv' => ?_, hi.none, fun w' c' hc' => ?_, hi.apart⟩
      · dsimp only [put] at hv' ⊢
        by_cases h : i = a
        · simp [h] at hv'
        · rw [if_neg h] at hv'
          simp only [if_neg h]
          exact hi.vecs i hv'
      · obtain ⟨p, hp, hf⟩ := hi.some w' c' hc'
        exact ⟨p, hp, hf.frame (put_other (hother w' c' hc')) ((put_other (hother w' c' hc')).trans hf.mine)⟩
  | fromProto w a src =>
    obtain ⟨hn, hw, ls, hs, hno, rfl⟩ := h
    have hsrc : ∀ s ∈ src, s.Lasting := by
      clear hn hw ht
      induction src generalizing ls with
      | nil => intro s hs; cases hs
      | cons s src ih =>
        obtain ⟨l, ls', rfl, h1, h2⟩ := hs
        intro s' hs'
        rcases List.mem_cons.mp hs' with rfl | hs'
        · cases s' with
          | borrow i off len => exact (hno l (List.mem_cons_self ..) i off len h1.2.1).elim
          | _ => trivial
        · exact ih ls' h2 (fun l hl => hno l (List.mem_cons_of_mem _ hl)) s' hs'
    have hother : ∀ w' c', W.owned w' = Option.some c' → c'.buf ≠ a := fun w' c' hc' he => by
      obtain ⟨p, _, hf⟩ := hi.some w' c' hc'
      have := hf.buf
      rw [he, hn] at this; cases this
    have hva : W.vecs a = false := by
      cases h : W.vecs a with
      | false => rfl
      | true => obtain ⟨_, b, hb⟩ := hi.vecs a h; rw [hn] at hb; cases hb
    refine ⟨fun i hv' => ?_, fun w' hn => ?_, fun w' c' hc' => ?_, fun w1 w2 c1 c2 hne h1 h2 => ?_⟩
    · have hia : i ≠ a := fun h => by rw [h] at hv'; exact absurd (hv'.symm.trans hva) (by decide)
      have := hi.vecs i hv'
      simp only [Values.after]
      rw [put_other hia]
      exact this
    · simp only [Values.after, put] at hn ⊢
      by_cases h : w' = w
      · simp [h] at hn
      · rw [if_neg h] at hn ⊢
        exact hi.none w' hn
    · simp only [Values.after, put] at hc' ⊢
      by_cases h : w' = w
      · rw [if_pos h] at hc' ⊢
        cases hc'
        refine ⟨_, rfl, ?_, hva, ?_, ?_⟩
        · exact put_same
        · exact stores_inside (fun l hl => by cases hl) hsrc hs
        · refine Eq.trans (readLeaves_congr (a := a + 1) (put_other (by omega)) ?_) (stores_read (V := V) (ps := []) rfl hsrc hs)
          exact fun l hl i off len he => (hno l hl i off len he).elim
      · rw [if_neg h] at hc' ⊢
        obtain ⟨p, hp, hf⟩ := hi.some w' c' hc'
        exact ⟨p, hp, hf.frame (if_neg (hother w' c' hc')) hf.mine⟩
    · dsimp only [put] at h1 h2
      by_cases e1 : w1 = w
      · rw [if_pos e1] at h1
        have e2 : w2 ≠ w := fun h => hne (e1.trans h.symm)
        rw [if_neg e2] at h2
        cases h1
        exact fun h => hother w2 c2 h2 h.symm
      · rw [if_neg e1] at h1
        by_cases e2 : w2 = w
        · rw [if_pos e2] at h2
          cases h2
          exact hother w1 c1 h1
        · rw [if_neg e2] at h2
          exact hi.apart w1 w2 c1 c2 hne h1 h2
  | protoMut w src =>
    obtain ⟨c, ls, hc, hs, rfl⟩ := h
    obtain ⟨⟨b, ps⟩, hp, hf⟩ := hi.some w c hc
    simp only [Values.after, hp]
    refine ⟨hi.vecs, fun w' hn => ?_, fun w' c' hc' => ?_, fun w1 w2 c1 c2 hne h1 h2 => ?_⟩
    · dsimp only [put] at hn ⊢
      by_cases h : w' = w
      · simp [h] at hn
      · rw [if_neg h] at hn ⊢
        exact hi.none w' hn
    · dsimp only [put] at hc' ⊢
      by_cases h : w' = w
      · rw [if_pos h] at hc' ⊢
        cases hc'
        exact ⟨_, rfl, hf.buf, hf.mine, stores_inside hf.inside ht hs, stores_read hf.read ht hs⟩
      · rw [if_neg h] at hc' ⊢
        obtain ⟨q, hq, hfq⟩ := hi.some w' c' hc'
        exact ⟨q, hq, hfq.frame rfl hfq.mine⟩
    · dsimp only [put] at h1 h2
      by_cases e1 : w1 = w
      · rw [if_pos e1] at h1
        have e2 : w2 ≠ w := fun h => hne (e1.trans h.symm)
        rw [if_neg e2] at h2
        cases h1
        exact hi.apart w w2 c c2 (fun h => e2 h.symm) hc h2
      · rw [if_neg e1] at h1
        by_cases e2 : w2 = w
        · rw [if_pos e2] at h2
          cases h2
          exact hi.apart w1 w c1 c e1 h1 hc
        · rw [if_neg e2] at h2
          exact hi.apart w1 w2 c1 c2 hne h1 h2
  | swap w w' => exact ht.elim
  | move w w' =>
    obtain ⟨c, hne, hc, hn, rfl⟩ := h
    obtain ⟨p, hp, hf⟩ := hi.some w c hc
    simp only [Values.after]
    have hold : ∀ x cx, put (put W.owned w Option.none) w' (Option.some c) x = Option.some cx → (x = w' ∧ cx = c) ∨ (x ≠ w' ∧ x ≠ w ∧ W.owned x = Option.some cx) := by
      intro x cx h
      dsimp only [put] at h
      by_cases e : x = w'
      · rw [if_pos e] at h; cases h; exact Or.inl ⟨e, rfl⟩
      · rw [if_neg e] at h
        by_cases e2 : x = w
        · rw [if_pos e2] at h; cases h
        · rw [if_neg e2] at h; exact Or.inr ⟨e, e2, h⟩
    refine ⟨hi.vecs, fun x hn' => ?_, fun x cx hcx => ?_, fun w1 w2 c1 c2 hd h1 h2 => ?_⟩
    · dsimp only [put] at hn' ⊢
      by_cases e : x = w'
      · rw [if_pos e] at hn'; cases hn'
      · rw [if_neg e] at hn' ⊢
        by_cases e2 : x = w
        · rw [if_pos e2]
        · rw [if_neg e2] at hn' ⊢
          exact hi.none x hn'
    · rcases hold x cx hcx with ⟨rfl, rfl⟩ | ⟨e1, e2, h⟩
      · exact ⟨p, put_same.trans hp, hf.frame rfl hf.mine⟩
      · obtain ⟨q, hq, hfq⟩ := hi.some x cx h
        exact ⟨q, (put_other e1).trans ((put_other e2).trans hq), hfq.frame rfl hfq.mine⟩
    · rcases hold w1 c1 h1 with ⟨rfl, rfl⟩ | ⟨e1, e2, h⟩
      · rcases hold w2 c2 h2 with ⟨rfl, rfl⟩ | ⟨f1, f2, h'⟩
        · exact (hd rfl).elim
        · exact hi.apart w w2 c1 c2 (fun h => f2 h.symm) hc h'
      · rcases hold w2 c2 h2 with ⟨rfl, rfl⟩ | ⟨f1, f2, h'⟩
        · exact hi.apart w1 w c1 c2 e2 h hc
        · exact hi.apart w1 w2 c1 c2 hd h h'
  | drop w =>
    obtain ⟨c, hc, rfl⟩ := h
    obtain ⟨p, hp, hf⟩ := hi.some w c hc
    refine ⟨fun i hv => ?_, fun w' hn => ?_, fun w' c' hc' => ?_, fun w1 w2 c1 c2 hne h1 h2 => ?_⟩
    · have : i ≠ c.buf := fun h => by rw [h] at hv; exact absurd (hv.symm.trans hf.mine) (by decide)
      simp only [Values.after]
      rw [put_other this]
      exact hi.vecs i hv
    · simp only [Values.after, put] at hn ⊢
      by_cases h : w' = w
      · rw [if_pos h]
      · rw [if_neg h] at hn ⊢
        exact hi.none w' hn
    · simp only [Values.after, put] at hc' ⊢
      by_cases h : w' = w
      · rw [if_pos h] at hc'; cases hc'
      · rw [if_neg h] at hc' ⊢
        obtain ⟨q, hq, hfq⟩ := hi.some w' c' hc'
        exact ⟨q, hq, hfq.frame (if_neg (hi.apart w' w c' c h hc' hc)) hfq.mine⟩
    · dsimp only [put] at h1 h2
      by_cases e1 : w1 = w
      · rw [if_pos e1] at h1; cases h1
      · by_cases e2 : w2 = w
        · rw [if_pos e2] at h2; cases h2
        · rw [if_neg e1] at h1
          rw [if_neg e2] at h2
          exact hi.apart w1 w2 c1 c2 hne h1 h2

theorem inv_run {ops : List Op} {W : World} (h : Run C ops W) (ht : ∀ op ∈ ops, op.Tame) : Inv W (expected C ops) := by
  induction h with
  | start => exact inv_start
  | step h hs ih =>
    unfold expected
    rw [List.foldl_append]
    exact inv_step (ih fun op ho => ht op (List.mem_append_left _ ho)) (ht _ (List.mem_append_right _ (List.mem_singleton.mpr rfl))) hs

end QP.Gen
