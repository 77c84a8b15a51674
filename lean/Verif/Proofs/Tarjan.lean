import Verif.Model.Pbrs.Scc
import Verif.Spec.Graph
/-!
# Tarjan's algorithm
-/

set_option linter.unusedVariables false

namespace QP.Pbrs
open Spec

variable {adj : Nat → List Nat}

abbrev Edge (adj : Nat → List Nat) : Nat → Nat → Prop := fun a b => b ∈ adj a

/-- In an emitted component. -/
def TState.done (s : TState) (x : Nat) : Prop := ∃ c ∈ s.sccs, x ∈ c

/-- Invariant of the algorithm. -/
structure TInv (adj : Nat → List Nat) (s : TState) : Prop where
  vis : ∀ x, s.disc x ≠ -1 ↔ x ∈ s.stack ∨ s.done x
  disjoint : ∀ x ∈ s.stack, ¬ s.done x
  sorted : s.stack.Pairwise (fun a b => s.disc b < s.disc a)
  bound : ∀ x, s.disc x < s.count
  pos : 0 ≤ s.count
  nodup : s.sccs.flatten.Nodup
  closed : ∀ l c l', s.sccs = l ++ c :: l' → ∀ y ∈ c, ∀ z ∈ adj y, z ∈ c ∨ ∃ c' ∈ l, z ∈ c'
  strong : ∀ c ∈ s.sccs, ∀ x ∈ c, ∀ y ∈ c, Path (Edge adj) x y
  nonempty : ∀ c ∈ s.sccs, c ≠ []

/-- `s'` is `s` after more work: only white vertices have changed, `pre` has been pushed on the stack, components have
been added. -/
structure TExt (s s' : TState) (pre : List Nat) : Prop where
  stack : s'.stack = pre ++ s.stack
  disc : ∀ x, s.disc x ≠ -1 → s'.disc x = s.disc x
  low : ∀ x, s.disc x ≠ -1 → s'.low x = s.low x
  sccs : ∃ l, s'.sccs = s.sccs ++ l
  count : s.count ≤ s'.count
  fresh : ∀ x, s.disc x = -1 → s'.disc x ≠ -1 → s.count ≤ s'.disc x

/-- The edges of the new stack vertices `pre` lead to finished or new vertices, or to old stack vertices numbered at
least `L`. -/
def TEdges (adj : Nat → List Nat) (s s' : TState) (pre : List Nat) (L : Int) : Prop :=
  ∀ y ∈ pre, ∀ z ∈ adj y, s'.done z ∨ z ∈ pre ∨ (z ∈ s.stack ∧ L ≤ s'.disc z)

/-- What a call `scc(u)` achieves. -/
structure TPost (adj : Nat → List Nat) (u : Nat) (s s' : TState) (pre : List Nat) : Prop where
  ext : TExt s s' pre
  inv : TInv adj s'
  visited : s'.disc u ≠ -1
  reach : ∀ y, s.disc y = -1 → s'.disc y ≠ -1 → Path (Edge adj) u y
  edges : TEdges adj s s' pre (s'.low u)
  back : pre ≠ [] → (∃ x ∈ s.stack, s'.disc x = s'.low u ∧ Path (Edge adj) u x) ∧ ∀ y ∈ pre, Path (Edge adj) y u
  low : pre = [] → s'.low u = s'.disc u

/-- Number of white vertices below `n`. -/
def white (n : Nat) (s : TState) : Nat := (List.range n).countP (fun x => s.disc x == -1)

theorem white_mono {n : Nat} {s s' : TState} (h : ∀ x, s.disc x ≠ -1 → s'.disc x ≠ -1) : white n s' ≤ white n s := by
  unfold white
  apply List.countP_mono_left
  intro x _ hx
  simp only [beq_iff_eq] at hx ⊢
  exact Decidable.byContradiction fun hc => h x hc hx

theorem white_lt {n u : Nat} {s s' : TState} (h : ∀ x, s.disc x ≠ -1 → s'.disc x ≠ -1) (hu : u < n) (h1 : s.disc u = -1)
    (h2 : s'.disc u ≠ -1) : white n s' < white n s := by
  unfold white
  induction n with
  | zero => omega
  | succ n ih =>
    rw [List.range_succ, List.countP_append, List.countP_append]
    have hm : (List.range n).countP (fun x => s'.disc x == -1) ≤ (List.range n).countP (fun x => s.disc x == -1) :=
      white_mono (n := n) h
    by_cases he : u = n
    · subst he
      have a : List.countP (fun x => s.disc x == -1) [u] = 1 := by simp [h1]
      have b : List.countP (fun x => s'.disc x == -1) [u] = 0 := by simp [h2]
      omega
    · have hlt := ih (by omega)
      have : List.countP (fun x => s'.disc x == -1) [n] ≤ List.countP (fun x => s.disc x == -1) [n] := by
        apply List.countP_mono_left
        intro x _ hx
        simp only [beq_iff_eq] at hx ⊢
        exact Decidable.byContradiction fun hc => h x hc hx
      omega

/-- The state inside a call `scc(u)` started in `s0` (with stack `S0`), some edges `es` of `u` being done. -/
structure TLoop (adj : Nat → List Nat) (u : Nat) (s0 s : TState) (pre : List Nat) (es : List Nat) : Prop where
  stack : s.stack = pre ++ u :: s0.stack
  disc : ∀ x, s0.disc x ≠ -1 → s.disc x = s0.disc x
  lowOld : ∀ x, s0.disc x ≠ -1 → s.low x = s0.low x
  sccs : ∃ l, s.sccs = s0.sccs ++ l
  count : s0.count < s.count
  fresh : ∀ x, s0.disc x = -1 → s.disc x ≠ -1 → s0.count ≤ s.disc x
  discU : s.disc u = s0.count
  inv : TInv adj s
  reach : ∀ y, s0.disc y = -1 → s.disc y ≠ -1 → Path (Edge adj) u y
  up : ∀ y ∈ s.stack, Path (Edge adj) y u
  preEdges : ∀ y ∈ pre, ∀ z ∈ adj y, s.done z ∨ z ∈ pre ++ [u] ∨ (z ∈ s0.stack ∧ s.low u ≤ s.disc z)
  uEdges : ∀ z ∈ es, s.done z ∨ z ∈ pre ++ [u] ∨ (z ∈ s0.stack ∧ s.low u ≤ s.disc z)
  lowLe : s.low u ≤ s.disc u
  lowWit : s.low u = s.disc u ∨ ∃ x ∈ s0.stack, s.disc x = s.low u ∧ Path (Edge adj) u x

theorem TInv.withLow {s : TState} (h : TInv adj s) (f : Nat → Int) : TInv adj { s with low := f } :=
  ⟨h.vis, h.disjoint, h.sorted, h.bound, h.pos, h.nodup, h.closed, h.strong, h.nonempty⟩

theorem TInv.stackVisited {s : TState} (h : TInv adj s) {x : Nat} (hx : x ∈ s.stack) : s.disc x ≠ -1 :=
  (h.vis x).mpr (Or.inl hx)

theorem done_mono {s s' : TState} (h : ∃ l, s'.sccs = s.sccs ++ l) {x : Nat} (hx : s.done x) : s'.done x := by
  obtain ⟨l, hl⟩ := h
  obtain ⟨c, hc, hx⟩ := hx
  exact ⟨c, by rw [hl]; exact List.mem_append_left _ hc, hx⟩

section
variable {u : Nat} {s0 s : TState} {pre es : List Nat}

theorem TLoop.above (h : TLoop adj u s0 s pre es) {x : Nat} (hx : x ∈ pre) : s.disc u < s.disc x := by
  have := h.inv.sorted
  rw [h.stack, List.pairwise_append] at this
  exact this.2.2 x hx u (by simp)

theorem TLoop.below (h : TLoop adj u s0 s pre es) {x : Nat} (hx : x ∈ s0.stack) : s.disc x < s.disc u := by
  have := h.inv.sorted
  rw [h.stack, List.pairwise_append] at this
  exact (List.pairwise_cons.mp this.2.1).1 x hx

theorem TLoop.uVisited (h : TLoop adj u s0 s pre es) : s.disc u ≠ -1 :=
  h.inv.stackVisited (by rw [h.stack]; simp)

/-- One edge `u → v` to a white vertex, after the recursive call. -/
theorem TLoop.recurse (h0 : s0.disc u = -1) (h : TLoop adj u s0 s pre es) {v : Nat} (huv : v ∈ adj u)
    (hv : s.disc v = -1) {s1 : TState} {pv : List Nat} (hp : TPost adj v s s1 pv) :
    TLoop adj u s0 { s1 with low := update s1.low u (min (s1.low u) (s1.low v)) } (pv ++ pre) (es ++ [v]) := by
  have huvis := h.uVisited
  have hdu := hp.ext.disc u huvis
  have hlu := hp.ext.low u huvis
  have hedge : Path (Edge adj) u v := Path.edge huv
  have h0vis : ∀ x, s0.disc x ≠ -1 → s.disc x ≠ -1 := fun x hx => by rw [h.disc x hx]; exact hx
  have hlowU : update s1.low u (min (s1.low u) (s1.low v)) u = min (s.low u) (s1.low v) := by
    simp [update, hlu]
  have old : ∀ z, (s.done z ∨ z ∈ pre ++ [u] ∨ (z ∈ s0.stack ∧ s.low u ≤ s.disc z)) →
      s1.done z ∨ z ∈ (pv ++ pre) ++ [u] ∨ (z ∈ s0.stack ∧ min (s.low u) (s1.low v) ≤ s1.disc z) := by
    rintro z (hz | hz | ⟨hz, hl⟩)
    · exact Or.inl (done_mono hp.ext.sccs hz)
    · exact Or.inr (Or.inl (by rw [List.append_assoc]; exact List.mem_append_right _ hz))
    · refine Or.inr (Or.inr ⟨hz, ?_⟩)
      rw [hp.ext.disc z (h.inv.stackVisited (by rw [h.stack]; simp [hz]))]
      omega
  refine ⟨?_, ?_, ?_, ?_, ?_, ?_, ?_, hp.inv.withLow _, ?_, ?_, ?_, ?_, ?_, ?_⟩
  · simp only [hp.ext.stack, h.stack, List.append_assoc]
  · intro x hx
    simp only
    rw [hp.ext.disc x (h0vis x hx), h.disc x hx]
  · intro x hx
    have hxu : x ≠ u := fun e => hx (e ▸ h0)
    simp only [update, if_neg hxu]
    rw [hp.ext.low x (h0vis x hx), h.lowOld x hx]
  · obtain ⟨l, hl⟩ := h.sccs
    obtain ⟨l', hl'⟩ := hp.ext.sccs
    exact ⟨l ++ l', by simp only [hl', hl, List.append_assoc]⟩
  · have := h.count
    have := hp.ext.count
    simp only
    omega
  · intro x hx hx'
    simp only at hx' ⊢
    by_cases hs : s.disc x = -1
    · have := hp.ext.fresh x hs hx'
      have := h.count
      omega
    · rw [hp.ext.disc x hs]
      exact h.fresh x hx hs
  · simp only [hdu, h.discU]
  · intro y hy hy'
    simp only at hy'
    by_cases hs : s.disc y = -1
    · exact hedge.trans (hp.reach y hs hy')
    · exact h.reach y hy hs
  · intro y hy
    simp only [hp.ext.stack, List.mem_append] at hy
    rcases hy with hy | hy
    · obtain ⟨⟨x, hx, _, hvx⟩, hyv⟩ := hp.back (List.ne_nil_of_mem hy)
      exact ((hyv y hy).trans hvx).trans (h.up x hx)
    · exact h.up y hy
  · intro y hy z hz
    simp only [hlowU]
    rcases List.mem_append.mp hy with hy | hy
    · rcases hp.edges y hy z hz with hd | hd | ⟨hd, hl⟩
      · exact Or.inl hd
      · exact Or.inr (Or.inl (by simp [hd]))
      · rw [h.stack] at hd
        rcases List.mem_append.mp hd with hd | hd
        · exact Or.inr (Or.inl (by simp [hd]))
        · rcases List.mem_cons.mp hd with rfl | hd
          · exact Or.inr (Or.inl (by simp))
          · exact Or.inr (Or.inr ⟨hd, by omega⟩)
    · exact old z (h.preEdges y hy z hz)
  · intro z hz
    simp only [hlowU]
    rcases List.mem_append.mp hz with hz | hz
    · exact old z (h.uEdges z hz)
    · simp only [List.mem_cons, List.not_mem_nil, or_false] at hz
      subst hz
      rcases (hp.inv.vis z).mp hp.visited with hd | hd
      · rw [hp.ext.stack] at hd
        rcases List.mem_append.mp hd with hd | hd
        · exact Or.inr (Or.inl (by simp [hd]))
        · exact ((h.inv.stackVisited hd) hv).elim
      · exact Or.inl hd
  · simp only [hlowU, hdu]
    have := h.lowLe
    omega
  · simp only [hlowU, hdu]
    by_cases hle : s.low u ≤ s1.low v
    · rw [Int.min_eq_left hle]
      rcases h.lowWit with hw | ⟨x, hx, hd, hpth⟩
      · exact Or.inl hw
      · refine Or.inr ⟨x, hx, ?_, hpth⟩
        rw [hp.ext.disc x (h.inv.stackVisited (by rw [h.stack]; simp [hx]))]
        exact hd
    · rw [Int.min_eq_right (by omega)]
      have hll := h.lowLe
      by_cases hpv : pv = []
      · exfalso
        have h1 := hp.low hpv
        have h2 := hp.ext.fresh v hv hp.visited
        have h3 := h.inv.bound u
        omega
      · obtain ⟨x, hx, hd, hvx⟩ := (hp.back hpv).1
        have hdx := hp.ext.disc x (h.inv.stackVisited hx)
        rw [h.stack] at hx
        rcases List.mem_append.mp hx with hx | hx
        · exfalso
          have := h.above hx
          omega
        · rcases List.mem_cons.mp hx with rfl | hx
          · exfalso; omega
          · exact Or.inr ⟨x, hx, hd, hedge.trans hvx⟩

/-- One edge `u → v` to a vertex on the stack. -/
theorem TLoop.onStack (h0 : s0.disc u = -1) (h : TLoop adj u s0 s pre es) {v : Nat} (huv : v ∈ adj u) (hv : v ∈ s.stack) :
    TLoop adj u s0 { s with low := update s.low u (min (s.low u) (s.disc v)) } pre (es ++ [v]) := by
  have hlowU : update s.low u (min (s.low u) (s.disc v)) u = min (s.low u) (s.disc v) := by simp [update]
  have old : ∀ z, (s.done z ∨ z ∈ pre ++ [u] ∨ (z ∈ s0.stack ∧ s.low u ≤ s.disc z)) →
      s.done z ∨ z ∈ pre ++ [u] ∨ (z ∈ s0.stack ∧ min (s.low u) (s.disc v) ≤ s.disc z) := by
    rintro z (hz | hz | ⟨hz, hl⟩)
    · exact Or.inl hz
    · exact Or.inr (Or.inl hz)
    · exact Or.inr (Or.inr ⟨hz, by omega⟩)
  refine ⟨h.stack, h.disc, ?_, h.sccs, h.count, h.fresh, h.discU, h.inv.withLow _, h.reach, h.up, ?_, ?_, ?_, ?_⟩
  · intro x hx
    have hxu : x ≠ u := fun e => hx (e ▸ h0)
    simp only [update, if_neg hxu]
    exact h.lowOld x hx
  · intro y hy z hz
    simp only [hlowU]
    exact old z (h.preEdges y hy z hz)
  · intro z hz
    simp only [hlowU]
    rcases List.mem_append.mp hz with hz | hz
    · exact old z (h.uEdges z hz)
    · simp only [List.mem_cons, List.not_mem_nil, or_false] at hz
      subst hz
      rw [h.stack] at hv
      rcases List.mem_append.mp hv with hv | hv
      · exact Or.inr (Or.inl (by simp [hv]))
      · rcases List.mem_cons.mp hv with rfl | hv
        · exact Or.inr (Or.inl (by simp))
        · exact Or.inr (Or.inr ⟨hv, by omega⟩)
  · simp only [hlowU]
    have := h.lowLe
    omega
  · simp only [hlowU]
    by_cases hle : s.low u ≤ s.disc v
    · rw [Int.min_eq_left hle]
      exact h.lowWit
    · rw [Int.min_eq_right (by omega)]
      have hll := h.lowLe
      rw [h.stack] at hv
      rcases List.mem_append.mp hv with hv | hv
      · exfalso
        have := h.above hv
        omega
      · rcases List.mem_cons.mp hv with rfl | hv
        · exfalso; omega
        · exact Or.inr ⟨v, hv, rfl, Path.edge huv⟩

/-- One edge to a finished vertex. -/
theorem TLoop.finished (h : TLoop adj u s0 s pre es) {v : Nat} (hv : s.done v) : TLoop adj u s0 s pre (es ++ [v]) := by
  refine ⟨h.stack, h.disc, h.lowOld, h.sccs, h.count, h.fresh, h.discU, h.inv, h.reach, h.up, h.preEdges, ?_, h.lowLe,
    h.lowWit⟩
  intro z hz
  rcases List.mem_append.mp hz with hz | hz
  · exact h.uEdges z hz
  · simp only [List.mem_cons, List.not_mem_nil, or_false] at hz
    exact Or.inl (hz ▸ hv)

end

theorem sccEdges_ok {n k u : Nat} {s0 : TState} {visit : Nat → TState → Option TState} (h0 : s0.disc u = -1)
    (hvisit : ∀ v s, v < n → s.disc v = -1 → TInv adj s → (∀ y ∈ s.stack, Path (Edge adj) y v) → white n s ≤ k →
      ∃ s' pre, visit v s = some s' ∧ TPost adj v s s' pre)
    (vs : List Nat) (hvs : ∀ v ∈ vs, v ∈ adj u ∧ v < n) :
    ∀ s pre es, TLoop adj u s0 s pre es → white n s ≤ k →
      ∃ s' pre', sccEdges visit u vs s = some s' ∧ TLoop adj u s0 s' pre' (es ++ vs) := by
  induction vs with
  | nil => intro s pre es h _; exact ⟨s, pre, rfl, by simpa using h⟩
  | cons v vs ih =>
    intro s pre es h hk
    have ⟨hv, hvn⟩ := hvs v (by simp)
    have ih := ih (fun w hw => hvs w (by simp [hw]))
    by_cases hw : s.disc v = -1
    · obtain ⟨s1, pv, h1, hp⟩ := hvisit v s hvn hw h.inv (fun y hy => (h.up y hy).step hv) hk
      have hmono : ∀ x, s.disc x ≠ -1 → s1.disc x ≠ -1 := fun x hx => by rw [hp.ext.disc x hx]; exact hx
      obtain ⟨s', pre', h2, h3⟩ := ih _ _ _ (h.recurse h0 hv hw hp)
        (Nat.le_trans (white_mono (s' := { s1 with low := update s1.low u (min (s1.low u) (s1.low v)) }) hmono) hk)
      refine ⟨s', pre', ?_, by simpa using h3⟩
      simp only [sccEdges, hw, if_true, h1]
      exact h2
    · by_cases hst : v ∈ s.stack
      · obtain ⟨s', pre', h2, h3⟩ := ih _ _ _ (h.onStack h0 hv hst) hk
        refine ⟨s', pre', ?_, by simpa using h3⟩
        simp only [sccEdges, hw, if_false, hst, if_true]
        exact h2
      · have hd : s.done v := ((h.inv.vis v).mp hw).resolve_left hst
        obtain ⟨s', pre', h2, h3⟩ := ih _ _ _ (h.finished hd) hk
        refine ⟨s', pre', ?_, by simpa using h3⟩
        simp only [sccEdges, hw, if_false, hst]
        exact h2

theorem popUntil_append {u : Nat} {pre rest : List Nat} (h : u ∉ pre) :
    popUntil u (pre ++ u :: rest) = (pre ++ [u], rest) := by
  induction pre with
  | nil => simp [popUntil]
  | cons w ws ih =>
    simp only [List.mem_cons, not_or] at h
    have hne : ¬ w = u := fun e => h.1 e.symm
    simp only [List.cons_append, popUntil, if_neg hne, ih h.2]

/-- Entering `scc(u)`. -/
theorem TLoop.enter {u : Nat} {s0 : TState} (h0 : s0.disc u = -1) (hi : TInv adj s0)
    (hup : ∀ y ∈ s0.stack, Path (Edge adj) y u) :
    TLoop adj u s0 { s0 with disc := update s0.disc u s0.count, low := update s0.low u s0.count, count := s0.count + 1,
                             stack := u :: s0.stack } [] [] := by
  have hdu : ∀ x, x ≠ u → update s0.disc u s0.count x = s0.disc x := fun x hx => by simp [update, hx]
  have huu : ∀ f : Nat → Int, update f u s0.count u = s0.count := fun f => by simp [update]
  have hne : ∀ x, s0.disc x ≠ -1 → x ≠ u := fun x hx e => hx (e ▸ h0)
  have hpos := hi.pos
  refine ⟨rfl, ?_, ?_, ⟨[], by simp⟩, ?_, ?_, huu _, ?_, ?_, ?_, ?_, ?_, ?_, ?_⟩
  · intro x hx; exact hdu x (hne x hx)
  · intro x hx; simp [update, hne x hx]
  · simp only; omega
  · intro x hx hx'
    simp only at hx' ⊢
    by_cases e : x = u
    · rw [e, huu]; omega
    · rw [hdu x e] at hx'; exact (hx' hx).elim
  · refine ⟨?_, ?_, ?_, ?_, ?_, hi.nodup, hi.closed, hi.strong, hi.nonempty⟩
    · intro x
      simp only [List.mem_cons]
      by_cases e : x = u
      · subst e
        rw [huu]
        exact ⟨fun _ => Or.inl (Or.inl rfl), fun _ => by omega⟩
      · rw [hdu x e, hi.vis x]
        constructor
        · rintro (h | h)
          · exact Or.inl (Or.inr h)
          · exact Or.inr h
        · rintro ((h | h) | h)
          · exact (e h).elim
          · exact Or.inl h
          · exact Or.inr h
    · intro x hx hd
      simp only [List.mem_cons] at hx
      have hd : s0.done x := hd
      rcases hx with rfl | hx
      · exact ((hi.vis x).mpr (Or.inr hd)) h0
      · exact hi.disjoint x hx hd
    · simp only
      refine List.pairwise_cons.mpr ⟨?_, ?_⟩
      · intro b hb
        rw [huu, hdu b (hne b (hi.stackVisited hb))]
        exact hi.bound b
      · refine hi.sorted.imp_of_mem fun {a b} ha hb hab => ?_
        rw [hdu a (hne a (hi.stackVisited ha)), hdu b (hne b (hi.stackVisited hb))]
        exact hab
    · intro x
      simp only
      by_cases e : x = u
      · rw [e, huu]; omega
      · rw [hdu x e]
        have := hi.bound x
        omega
    · simp only; omega
  · intro y hy hy'
    simp only at hy'
    by_cases e : y = u
    · rw [e]; exact Path.refl u
    · rw [hdu y e] at hy'; exact (hy' hy).elim
  · intro y hy
    simp only [List.mem_cons] at hy
    rcases hy with rfl | hy
    · exact Path.refl y
    · exact hup y hy
  · intro y hy; cases hy
  · intro y hy; cases hy
  · simp only [huu]; omega
  · simp only [huu]; exact Or.inl trivial

/-- Leaving `scc(u)`. -/
theorem TLoop.leave {u : Nat} {s0 s : TState} {pre : List Nat} (h0 : s0.disc u = -1) (hi : TInv adj s0)
    (h : TLoop adj u s0 s pre (adj u)) :
    ∃ s' pre', (if s.low u = s.disc u then
        some { s with sccs := s.sccs ++ [(popUntil u s.stack).1], stack := (popUntil u s.stack).2 }
      else some s) = some s' ∧ TPost adj u s0 s' pre' := by
  have hupre : u ∉ pre := fun hm => by have := h.above hm; omega
  have hall : ∀ y ∈ pre ++ [u], ∀ z ∈ adj y, s.done z ∨ z ∈ pre ++ [u] ∨ (z ∈ s0.stack ∧ s.low u ≤ s.disc z) := by
    intro y hy z hz
    rcases List.mem_append.mp hy with hy | hy
    · exact h.preEdges y hy z hz
    · simp only [List.mem_cons, List.not_mem_nil, or_false] at hy
      exact h.uEdges z (hy ▸ hz)
  have hmem : ∀ x, x ∈ s.stack ↔ x ∈ pre ++ [u] ∨ x ∈ s0.stack := by
    intro x; rw [h.stack]; simp [or_assoc]
  have hext : ∀ x, s0.disc x ≠ -1 → s.disc x = s0.disc x := h.disc
  by_cases hl : s.low u = s.disc u
  · rw [if_pos hl, h.stack, popUntil_append hupre]
    refine ⟨_, [], rfl, ?_, ?_, h.uVisited, h.reach, ?_, ?_, ?_⟩
    · exact ⟨rfl, h.disc, h.lowOld, by
        obtain ⟨l, hl⟩ := h.sccs
        exact ⟨l ++ [pre ++ [u]], by simp only [hl, List.append_assoc]⟩, by have := h.count; simp only; omega, h.fresh⟩
    · have hdone : ∀ x, (∃ c ∈ s.sccs ++ [pre ++ [u]], x ∈ c) ↔ s.done x ∨ x ∈ pre ++ [u] := by
        intro x
        constructor
        · rintro ⟨c, hc, hx⟩
          rcases List.mem_append.mp hc with hc | hc
          · exact Or.inl ⟨c, hc, hx⟩
          · simp only [List.mem_cons, List.not_mem_nil, or_false] at hc
            exact Or.inr (hc ▸ hx)
        · rintro (⟨c, hc, hx⟩ | hx)
          · exact ⟨c, List.mem_append_left _ hc, hx⟩
          · exact ⟨_, List.mem_append_right _ (by simp), hx⟩
      have hsorted := h.inv.sorted
      rw [h.stack, show pre ++ u :: s0.stack = (pre ++ [u]) ++ s0.stack by simp, List.pairwise_append] at hsorted
      have hcompWhite : ∀ y ∈ pre ++ [u], s0.disc y = -1 := by
        intro y hy
        refine Decidable.byContradiction fun hc => ?_
        rcases (hi.vis y).mp hc with h1 | h1
        · have := hsorted.2.2 y hy y h1
          omega
        · exact h.inv.disjoint y ((hmem y).mpr (Or.inl hy)) (done_mono h.sccs h1)
      refine ⟨?_, ?_, hsorted.2.1, h.inv.bound, h.inv.pos, ?_, ?_, ?_, ?_⟩
      · intro x
        rw [h.inv.vis x, hmem x]
        simp only [TState.done]
        rw [hdone x]
        simp only [TState.done]
        constructor
        · rintro ((h | h) | h)
          · exact Or.inr (Or.inr h)
          · exact Or.inl h
          · exact Or.inr (Or.inl h)
        · rintro (h | h | h)
          · exact Or.inl (Or.inr h)
          · exact Or.inr h
          · exact Or.inl (Or.inl h)
      · intro x hx hd
        simp only at hx
        rcases (hdone x).mp hd with hd | hd
        · exact h.inv.disjoint x ((hmem x).mpr (Or.inr hx)) hd
        · have := hsorted.2.2 x hd x hx
          omega
      · simp only [List.flatten_append, List.flatten_cons, List.flatten_nil, List.append_nil]
        rw [List.nodup_append]
        refine ⟨h.inv.nodup, hsorted.1.imp (fun hab e => by rw [e] at hab; omega), ?_⟩
        intro a ha b hb e
        subst e
        obtain ⟨c, hc, hac⟩ := List.mem_flatten.mp ha
        exact h.inv.disjoint a ((hmem a).mpr (Or.inl hb)) ⟨c, hc, hac⟩
      · intro l c l' he y hy z hz
        simp only at he
        rcases List.eq_nil_or_concat l' with rfl | ⟨l'', c'', rfl⟩
        · obtain ⟨e1, e2⟩ := List.append_inj' he rfl
          simp only [List.cons.injEq, and_true] at e2
          subst e1 e2
          rcases hall y hy z hz with hd | hd | ⟨hd, hle⟩
          · exact Or.inr hd
          · exact Or.inl hd
          · exfalso
            have := h.below hd
            omega
        · rw [List.concat_eq_append, ← List.cons_append, ← List.append_assoc] at he
          obtain ⟨e1, _⟩ := List.append_inj' he rfl
          exact h.inv.closed l c l'' e1 y hy z hz
      · intro c hc x hx y hy
        rcases List.mem_append.mp hc with hc | hc
        · exact h.inv.strong c hc x hx y hy
        · simp only [List.mem_cons, List.not_mem_nil, or_false] at hc
          subst hc
          exact (h.up x ((hmem x).mpr (Or.inl hx))).trans
            (h.reach y (hcompWhite y hy) (h.inv.stackVisited ((hmem y).mpr (Or.inl hy))))
      · intro c hc
        rcases List.mem_append.mp hc with hc | hc
        · exact h.inv.nonempty c hc
        · simp only [List.mem_cons, List.not_mem_nil, or_false] at hc
          subst hc; simp
    · intro y hy; cases hy
    · intro hne; exact (hne rfl).elim
    · intro _; exact hl
  · rw [if_neg hl]
    refine ⟨s, pre ++ [u], rfl, ?_, h.inv, h.uVisited, h.reach, ?_, ?_, ?_⟩
    · exact ⟨by rw [h.stack]; simp, h.disc, h.lowOld, h.sccs, by have := h.count; omega, h.fresh⟩
    · exact hall
    · intro _
      refine ⟨?_, fun y hy => h.up y ((hmem y).mpr (Or.inl hy))⟩
      rcases h.lowWit with hw | hw
      · exact (hl hw).elim
      · exact hw
    · intro e; simp at e

theorem scc_ok {n : Nat} (hadj : ∀ u < n, ∀ v ∈ adj u, v < n) (fuel : Nat) : ∀ u s, u < n → s.disc u = -1 →
    TInv adj s → (∀ y ∈ s.stack, Path (Edge adj) y u) → white n s ≤ fuel →
    ∃ s' pre, scc adj fuel u s = some s' ∧ TPost adj u s s' pre := by
  induction fuel with
  | zero =>
    intro u s hu h0 _ _ hw
    exfalso
    have : u ∈ List.range n := List.mem_range.mpr hu
    have h1 : 0 < white n s := by
      unfold white
      exact List.countP_pos_iff.mpr ⟨u, this, by simp [h0]⟩
    omega
  | succ fuel ih =>
    intro u s hu h0 hi hup hw
    have hen := TLoop.enter h0 hi hup
    have hwl : white n { s with disc := update s.disc u s.count, low := update s.low u s.count, count := s.count + 1,
                                stack := u :: s.stack } < white n s := by
      refine white_lt (u := u) ?_ hu h0 hen.uVisited
      intro x hx
      rw [hen.disc x hx]; exact hx
    obtain ⟨s1, pre, h1, h2⟩ := sccEdges_ok h0 ih (adj u) (fun v hv => ⟨hv, hadj u hu v hv⟩) _ _ _ hen (by omega)
    rw [List.nil_append] at h2
    obtain ⟨s', pre', h3, h4⟩ := h2.leave h0 hi
    refine ⟨s', pre', ?_, h4⟩
    simp only [scc, h1]
    exact h3

theorem path_lt {n : Nat} (hadj : ∀ u < n, ∀ v ∈ adj u, v < n) {a b : Nat} (ha : a < n) (h : Path (Edge adj) a b) : b < n := by
  induction h with
  | refl => exact ha
  | step _ e ih => exact hadj _ ih _ e

theorem sccAll_ok {n : Nat} (hadj : ∀ u < n, ∀ v ∈ adj u, v < n) (us : List Nat) (hus : ∀ u ∈ us, u < n) :
    ∀ s, TInv adj s → s.stack = [] → (∀ x, s.disc x ≠ -1 → x < n) →
    ∃ s', sccAll adj (n + 1) us s = some s' ∧ TInv adj s' ∧ s'.stack = [] ∧ (∀ x, s'.disc x ≠ -1 → x < n) ∧
      (∀ u ∈ us, s'.disc u ≠ -1) ∧ (∀ u, s.disc u ≠ -1 → s'.disc u ≠ -1) := by
  induction us with
  | nil => intro s h1 h2 h3; exact ⟨s, rfl, h1, h2, h3, by simp, fun _ h => h⟩
  | cons u us ih =>
    intro s h1 h2 h3
    have ih := ih (fun w hw => hus w (by simp [hw]))
    by_cases hw : s.disc u = -1
    · have hle : white n s ≤ n + 1 := by
        unfold white
        have := List.countP_le_length (p := fun x => s.disc x == -1) (l := List.range n)
        simp only [List.length_range] at this
        omega
      obtain ⟨s1, pre, hs1, hp⟩ := scc_ok hadj (n + 1) u s (hus u (by simp)) hw h1 (by rw [h2]; simp) hle
      have hpre : pre = [] := by
        refine Decidable.byContradiction fun hne => ?_
        obtain ⟨⟨x, hx, _⟩, _⟩ := hp.back hne
        rw [h2] at hx; cases hx
      obtain ⟨s', e, a, b, c, d, f⟩ := ih s1 hp.inv (by rw [hp.ext.stack, hpre, h2]; rfl) (by
        intro x hx
        by_cases hs : s.disc x = -1
        · exact path_lt hadj (hus u (by simp)) (hp.reach x hs hx)
        · exact h3 x hs)
      refine ⟨s', ?_, a, b, c, ?_, ?_⟩
      · simp only [sccAll, hw, if_true, hs1]; exact e
      · intro w hw'
        rcases List.mem_cons.mp hw' with rfl | hw'
        · exact f w hp.visited
        · exact d w hw'
      · intro w hw'
        refine f w ?_
        rw [hp.ext.disc w hw']; exact hw'
    · obtain ⟨s', e, a, b, c, d, f⟩ := ih s h1 h2 h3
      refine ⟨s', ?_, a, b, c, ?_, f⟩
      · simp only [sccAll, hw, if_false]; exact e
      · intro w hw'
        rcases List.mem_cons.mp hw' with rfl | hw'
        · exact f w hw
        · exact d w hw'

/-- The components found: a partition of `0..n` into strongly connected sets, in an order in which edges never lead to a
later component. -/
structure Components (adj : Nat → List Nat) (n : Nat) (cs : List (List Nat)) : Prop where
  partition : cs.flatten.Nodup ∧ ∀ x, x ∈ cs.flatten ↔ x < n
  nonempty : ∀ c ∈ cs, c ≠ []
  strong : ∀ c ∈ cs, ∀ x ∈ c, ∀ y ∈ c, Path (Edge adj) x y
  closed : ∀ l c l', cs = l ++ c :: l' → ∀ y ∈ c, ∀ z ∈ adj y, z ∈ c ∨ ∃ c' ∈ l, z ∈ c'

theorem sccNumbers_ok {n : Nat} (hadj : ∀ u < n, ∀ v ∈ adj u, v < n) :
    ∃ cs, sccNumbers adj n = some cs ∧ Components adj n cs := by
  have h0 : TInv adj TState.init := by
    refine ⟨?_, ?_, List.Pairwise.nil, ?_, ?_, List.nodup_nil, ?_, ?_, ?_⟩
    · intro x; simp [TState.init, TState.done]
    · intro x hx; cases hx
    · intro x; simp [TState.init]
    · simp [TState.init]
    · intro l c l' he; simp [TState.init] at he
    · intro c hc; cases hc
    · intro c hc; cases hc
  obtain ⟨s', e, a, b, c, d, f⟩ := sccAll_ok hadj (List.range n) (fun u hu => List.mem_range.mp hu) TState.init h0 rfl
    (fun x hx => (hx rfl).elim)
  refine ⟨s'.sccs, by simp only [sccNumbers, e, Option.map_some], ⟨⟨a.nodup, fun x => ?_⟩, a.nonempty, a.strong, a.closed⟩⟩
  have hd : x ∈ s'.sccs.flatten ↔ s'.done x := List.mem_flatten
  rw [hd]
  constructor
  · intro h; exact c x ((a.vis x).mpr (Or.inr h))
  · intro h
    rcases (a.vis x).mp (d x (List.mem_range.mpr h)) with h | h
    · rw [b] at h; cases h
    · exact h

end QP.Pbrs
