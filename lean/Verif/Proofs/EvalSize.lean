import Verif.Proofs.Eval
set_option linter.unusedVariables false
set_option linter.unusedSimpArgs false
/-!
Running the generated `get_size` and `default`.
-/

namespace QP.Rust
open QP.Pbrs QP.Gen QP.BytesReader

section
variable {C : Ctx} {W : World} {sub : MessageIndex → RVal → Prop} {rd : MessageIndex → Bytes → RM RVal}
  {wr : MessageIndex → MessageWrite RVal} {σ : Type}

theorem Env.set_same (env : Env) (x : Var) (v : Val) : env.set x v x = some v := by simp [Env.set]
theorem Env.set_other (env : Env) {x y : Var} (v : Val) (h : y ≠ x) : env.set x v y = env y := by simp [Env.set, h]

theorem tyOf_strip {D : FileDescriptor} {cfg : Config} {t : FieldType} {T : Ty} (h : tyOf D cfg t = some T) : T.erase.strip = T.erase := by
  cases t
  case message i => obtain ⟨m, l, _, rfl⟩ := tyOf_message h; rfl
  case enum e => obtain ⟨m, _, rfl⟩ := tyOf_enum h; rfl
  case map k v => obtain ⟨m, l, _, _, rfl⟩ := tyOf_map h; rfl
  case messageOrEnum => cases h
  all_goals (cases h; rfl)

/-! ## Sums -/

theorem sum_one (W : World) (H : Host σ) (env : Env) {a b : Expr} {n k : Nat} (ha : evalExpr W H env a = pure (.usize n))
    (hb : evalExpr W H env b = pure (.usize k)) (brk : Bool) : evalExpr W H env (.bin .add brk a b) = pure (.usize (n + k)) := by
  simp only [evalExpr, ha, hb, pure_bind]
  rfl

theorem mapIter_pure {α : Type} {f : List Val → SM σ Val} {g : α → Val} {h : α → Nat} : ∀ {l : List α},
    (∀ x ∈ l, f [g x] = pure (.usize (h x))) → mapIter f (l.map g) = pure (l.map fun x => .usize (h x))
  | [], _ => rfl
  | x :: l, hl => by
    rw [List.map_cons, mapIter, hl x (by simp), mapIter_pure (fun y hy => hl y (by simp [hy]))]
    rfl

theorem sumIter_pure {α : Type} {h : α → Nat} : ∀ l : List α,
    (sumIter (l.map fun x => .usize (h x)) : SM σ Nat) = pure (l.map h).sum
  | [] => rfl
  | x :: l => by
    rw [List.map_cons, sumIter, sumIter_pure l]
    rfl

theorem sumOver_eval {α : Type} {H : Host σ} {env : Env} {e : Expr} {p : Pat} {b : Expr} {t' : Ty} {v : RVal} {g : α → Val} {h : α → Nat}
    {l : List α} (he : evalExpr W H env e = pure (.data t' v)) (hi : callAuto (σ := σ) W .iter (.data t'.strip v) = pure (.iter (l.map g)))
    (hb : ∀ x ∈ l, closure W env [p] (fun env => evalExpr W H env b) [g x] = pure (.usize (h x))) :
    evalExpr W H env (sumOver e p b) = pure (.usize (l.map h).sum) := by
  have h1 : mapIter (closure W env [p] fun env => evalExpr W H env b) (l.map g) = pure (l.map fun x => .usize (h x)) := mapIter_pure hb
  have h2 : ∀ f : List Val → SM σ Val, method W H (.iter (l.map g)) .map none [] [.fn f] =
      (mapIter f (l.map g) >>= fun ws => pure (.iter ws)) := fun f => rfl
  have h3 : ∀ ws, method W H (.iter ws) .sum (some .usize) [] [] = (sumIter ws >>= fun n => pure (.usize n)) := fun _ => rfl
  simp only [sumOver, evalExpr, evalArgs, evalArg, Exprs.one, he, pure_bind, meth_iter, hi, h2, h1, h3, sumIter_pure]

/-! ## Closures with one parameter -/

theorem closure_var (env : Env) (x : Var) (v : Val) (k : Env → SM σ Val) : closure W env [.var x] k [v] = k (env.set x v) := rfl
theorem closure_deref (env : Env) (x : Var) (t : Ty) (v : RVal) (k : Env → SM σ Val) :
    closure W env [.deref x] k [.data (.ref t) v] = k (env.set x (.data t v)) := rfl

/-- What a variable bound by `&x` or `x` is. -/
def ampTy (amp : Bool) (t : Ty) : Ty := if amp then t else .ref t

theorem closure_amp (env : Env) (amp : Bool) (x : Var) (t : Ty) (v : RVal) (k : Env → SM σ Val) :
    closure W env [patAmp amp x] k [.data (.ref t) v] = k (env.set x (.data (ampTy amp t) v)) := by cases amp <;> rfl

theorem match_amp (env : Env) (amp : Bool) (x : Var) (t : Ty) (v : RVal) :
    matchPat W env (patAmp amp x) (.data (.ref t) v) = .yes (env.set x (.data (ampTy amp t) v)) := by cases amp <;> rfl

theorem ampTy_strip (amp : Bool) (t : Ty) : (ampTy amp t).strip = t.strip := by cases amp <;> rfl

theorem var_eval (H : Host σ) (env : Env) (x : Var) (v : Val) : evalExpr W H (env.set x v) (.var x) = pure v := by
  simp only [evalExpr, Env.set_same]; rfl

/-! ## Defaults -/

/-- The value has the shape of a scalar type. -/
def Shaped : FieldType → RVal → Prop
  | .int32, v | .uint32, v | .sint32, v | .fixed32, v | .sfixed32, v | .float, v | .enum _, v => ∃ x, v = .w32 x
  | .int64, v | .uint64, v | .sint64, v | .fixed64, v | .sfixed64, v | .double, v => ∃ x, v = .w64 x
  | .bool, v => ∃ x, v = .bool x
  | .stringCow, v | .string_, v | .bytesCow, v | .bytes_, v => ∃ x, v = .bytes x
  | _, _ => False

theorem shaped {t : FieldType} {v : RVal} (h : HasType C sub t v) (hm : t.asMessage = none) : Shaped t v := by
  cases t
  case message => cases hm
  case map => cases h
  case messageOrEnum => cases h
  case enum => obtain ⟨x, h, _⟩ := h; exact ⟨x, h⟩
  case stringCow => obtain ⟨x, h, _⟩ := h; exact ⟨x, h⟩
  case string_ => obtain ⟨x, h, _⟩ := h; exact ⟨x, h⟩
  all_goals exact h

theorem generated_map {f : Frequency} (h : f.generated = .map) : f.isMap = true := by
  cases f <;> first | rfl | (cases h; done)
theorem generated_singular {f : Frequency} (h : f.generated = .singular) : f.isMap = false := by
  cases f <;> first | rfl | (cases h; done)
theorem generated_optional {f : Frequency} (h : f.isOptional = true) : f.generated = .singular := by
  cases f <;> first | rfl | (cases h; done)
theorem generated_array {f : Frequency} (h : f.generated = .arrayLike) : f.isRepeated = true := by
  cases f <;> first | rfl | (cases h; done)

/-- A field of a message, with what is known about it. -/
structure FieldIn (C : Ctx) (f : Field) : Prop where
  ok : FieldOk f
  boxed : f.boxed = true → ∃ i, f.typ = .message i
  cow : isPackedFixed f = true → C.cfg.dontUseCow = false
  mem : ∃ idx m, C.D.getMessage idx = some m ∧ f ∈ m.fields

theorem FieldIn.notMap {f : Field} (F : FieldIn C f) (hg : f.frequency.generated = .singular) : f.typ.isMap = false := by
  have := F.ok.map
  rw [← this]
  exact generated_singular hg

theorem singular_eval (A : Agree C W sub rd wr) (H : Host σ) (env : Env) {t : FieldType} {T : Ty} {e : Expr}
    (hT : tyOf C.D C.cfg t = some T) (he : singularDefault C.D t = some e) :
    evalExpr W H env e = pure (.data T.erase (typDefault C t)) := by
  cases t
  case message i =>
    obtain ⟨m, l, hm, rfl⟩ := tyOf_message hT
    simp only [singularDefault, hm, Option.map_some] at he
    cases he
    have h1 : callFn (σ := σ) W (.default (messagePath C.D m)) [] [] =
      pure (.data (.adt (messagePath C.D m) false) (W.default (messagePath C.D m))) := rfl
    simp only [evalExpr, evalArgs, pure_bind, vals, orStuck, h1, Ty.erase, typDefault, A.default i m hm]
  case enum i =>
    obtain ⟨en, hen, rfl⟩ := tyOf_enum hT
    simp only [singularDefault, hen, Option.bind_some] at he
    obtain ⟨s, hs, rfl⟩ := Option.map_eq_some_iff.mp he
    simp only [evalExpr, Ty.erase, typDefault, A.first i en s hen hs]
  case map => cases he
  case messageOrEnum => cases he
  all_goals
    cases he; cases hT
    simp only [evalExpr, evalArgs, evalArg, Exprs.one, pure_bind]
    rfl

theorem tyOf_size {D : FileDescriptor} {cfg : Config} {t : FieldType} {T : Ty} (h : tyOf D cfg t = some T) (hf : t.isFixedSize = true) :
    T.erase = T ∧ T.size = some (if t.wireTypeNumNonPacked = 1 then 8 else 4) := by
  cases t <;> first | (cases hf; done) | (cases h; exact ⟨rfl, rfl⟩)

/-- The printed default of a field. -/
theorem default_eval (A : Agree C W sub rd wr) (H : Host σ) (env : Env) {f : Field} (F : FieldIn C f) {FT : Ty} {e : Expr}
    (hFT : fieldTy C.D C.cfg f = some FT) (he : defaultTree C.D C.cfg f = some e) :
    evalExpr W H env e = pure (.data FT.erase (slotDefault C true (.field f))) := by
  obtain ⟨T, hT, rfl⟩ := Option.map_eq_some_iff.mp hFT
  unfold defaultTree at he
  unfold slotDefault
  cases hb : f.boxed
  · cases hg : f.frequency.generated <;> simp only [hg, hb] at he ⊢
    · cases ho : f.frequency.isOptional <;> simp only [ho] at he ⊢
      · simp only [Bool.false_eq_true, if_false, Bool.false_or, Bool.and_false] at he ⊢
        unfold fieldDefault
        cases hd : f.default <;> simp only [hd] at he ⊢
        · exact singular_eval A H env hT he
        · rename_i s
          obtain ⟨idx, m, hm, hf⟩ := F.mem
          have hc := A.const idx m hm f hf s hd T hT
          cases ht : f.typ <;> simp only [ht] at he hc hT ⊢
          case string_ =>
            cases he; cases hT
            obtain ⟨x, hx, _⟩ := by simpa only [ht] using A.constTyped idx m hm f hf s hd (by rw [ht]; rfl) hg
            rw [hx] at hc ⊢
            simp only [evalExpr, evalArgs, pure_bind, hc]
            rfl
          case bytes_ =>
            cases he; cases hT
            obtain ⟨x, hx⟩ := by simpa only [ht] using A.constTyped idx m hm f hf s hd (by rw [ht]; rfl) hg
            rw [hx] at hc ⊢
            simp only [evalExpr, evalArgs, pure_bind, hc]
            rfl
          all_goals
            simp only [hT, Option.map_some] at he
            cases he
            simp only [evalExpr, hc]
            rfl
      · simp only [Bool.false_eq_true, if_false, if_true, Bool.false_or, Bool.and_true] at he ⊢
        obtain ⟨T', hT', rfl⟩ := Option.map_eq_some_iff.mp he
        cases hT.symm.trans hT'
        simp only [evalExpr]
        rfl
    · obtain ⟨T', hT', rfl⟩ := Option.map_eq_some_iff.mp he
      cases hT.symm.trans hT'
      cases hp : isPackedFixed f
      · have : (f.isPacked && f.typ.isFixedSize && !C.cfg.dontUseCow) = false := by
          unfold isPackedFixed at hp; rw [hp]; rfl
        simp only [this, Bool.false_eq_true, if_false, evalExpr, evalArgs, pure_bind]
        rfl
      · have : (f.isPacked && f.typ.isFixedSize && !C.cfg.dontUseCow) = true := by
          have h := F.cow hp
          unfold isPackedFixed at hp; rw [hp, h]; rfl
        have hfx : f.typ.isFixedSize = true := by unfold isPackedFixed at hp; simp at hp; exact hp.2
        obtain ⟨h1, h2⟩ := tyOf_size hT hfx
        have hv : callFn (σ := σ) W .vecNew [T] [] = pure (.data (.vec T) (.vec [])) := rfl
        have hpf : callFn (σ := σ) W .packedFrom [T] [.data (.vec T) (.vec [])] =
            (match T.size with
            | some 8 => pure (.data (.packed T) (.pf64 (.owned [])))
            | some _ => pure (.data (.packed T) (.pf32 (.owned [])))
            | none => stuck) := rfl
        simp only [this, if_true, evalExpr, evalArgs, evalArg, Exprs.one, pure_bind, vals, orStuck, Option.map_some, h1, Ty.erase, hv, hpf, h2]
        by_cases hw : f.typ.wireTypeNumNonPacked = 1
        · simp only [hw, if_true]
          show pure _ = pure (Val.data (Ty.packed T.erase) _)
          rw [h1]; rfl
        · simp only [hw, if_false]
          show pure _ = pure (Val.data (Ty.packed T.erase) _)
          rw [h1]; rfl
    · obtain ⟨T', hT', rfl⟩ := Option.map_eq_some_iff.mp he
      cases hT.symm.trans hT'
      have : f.typ.isMap = true := by
        rw [← F.ok.map]
        exact generated_map hg
      cases ht : f.typ <;> rw [ht] at this <;> try (cases this; done)
      rw [ht] at hT
      obtain ⟨a, b, _, _, rfl⟩ := tyOf_map hT
      simp only [evalExpr, evalArgs, pure_bind]
      rfl
  · have ho := F.ok.boxed hb
    have hg : f.frequency.generated = .singular := generated_optional ho
    simp only [hg, hb, if_true] at he
    obtain ⟨T', hT', rfl⟩ := Option.map_eq_some_iff.mp he
    cases hT.symm.trans hT'
    simp only [evalExpr, hb, if_true, Bool.true_or]
    rfl

/-- Comparison of two values of a scalar type. -/
theorem eq_eval (A : Agree C W sub rd wr) {t : FieldType} {T : Ty} (hT : tyOf C.D C.cfg t = some T) {v w : RVal} (hv : Shaped t v)
    (hw : Shaped t w) : eqVal W (.data T.erase v) (.data T.erase w) = some (scalarEq t v w) := by
  cases t
  case enum e =>
    obtain ⟨en, hen, rfl⟩ := tyOf_enum hT
    obtain ⟨x, rfl⟩ := hv
    obtain ⟨y, rfl⟩ := hw
    simp only [eqVal, if_true, Ty.erase, A.enums e en hen, Option.isSome_some]
    rfl
  case message => cases hv
  case map => cases hv
  case messageOrEnum => cases hv
  all_goals
    cases hT
    obtain ⟨x, rfl⟩ := hv
    obtain ⟨y, rfl⟩ := hw
    simp only [eqVal, if_true, Ty.erase]
    rfl

theorem default_shaped (A : Agree C W sub rd wr) {f : Field} (F : FieldIn C f) (hg : f.frequency.generated = .singular)
    (hm : f.typ.asMessage = none) (hn : ∀ s, f.typ ≠ .messageOrEnum s) : Shaped f.typ (fieldDefault C f) := by
  unfold fieldDefault
  cases hd : f.default
  · simp only
    have hmap := F.notMap hg
    cases ht : f.typ <;> rw [ht] at hm hmap hn <;>
      first | (cases hm; done) | (cases hmap; done) | exact absurd rfl (hn _) | exact ⟨_, rfl⟩
  · obtain ⟨idx, m, hmm, hf⟩ := F.mem
    exact shaped (A.constTyped idx m hmm f hf _ hd hm hg) hm

/-- A field without presence that is not repeated is a scalar. -/
theorem noPresence_scalar {f : Field} (hg : f.frequency.generated = .singular) (hmap : f.typ.isMap = false)
    (hp : f.hasPresence = false) : f.typ.asMessage = none ∧ f.frequency.isOptional = false := by
  unfold Field.hasPresence at hp
  cases hf : f.frequency <;> rw [hf] at hg hp <;> simp only at hp <;> (try (cases hg; done)) <;> (try (rw [hmap] at hp; cases hp; done))
  · rw [hmap] at hp
    simp only [Bool.false_eq_true, if_false] at hp
    split at hp <;> cases hp
  · rw [hmap] at hp
    simp only [Bool.false_eq_true, if_false] at hp
    refine ⟨?_, rfl⟩
    cases hm : f.typ.asMessage with
    | none => rfl
    | some i => rw [hm] at hp; cases hp

theorem addTerms_one {H : Host σ} {env : Env} {a b : Expr} {n k : Nat} (ha : evalExpr W H env a = pure (.usize n))
    (hb : evalExpr W H env b = pure (.usize k)) : evalExpr W H env (addTerms a [b]) = pure (.usize (n + k)) :=
  sum_one W H env ha hb true

theorem num_eval (H : Host σ) (env : Env) (n : Nat) : evalExpr W H env (.num n) = pure (.usize n) := by simp only [evalExpr]

theorem sum_tag {H : Host σ} {env : Env} {b : Expr} {k : Nat} (n : Nat) (hb : evalExpr W H env b = pure (.usize k)) :
    evalExpr W H env (sum (.num n) [b]) = pure (.usize (n + k)) := sum_one W H env (num_eval H env n) hb false

theorem ite_eval {H : Host σ} {env : Env} {c a b : Expr} {t : Bool} {v w : Val} (hc : evalExpr W H env c = pure (.data .bool (.bool t)))
    (ha : evalExpr W H env a = pure v) (hb : evalExpr W H env b = pure w) :
    evalExpr W H env (.ite c a b) = pure (if t then v else w) := by
  simp only [evalExpr, hc, ha, hb, pure_bind]
  cases t <;> rfl

theorem len_call {H : Host σ} {env : Env} {b : Expr} {k : Nat} (hb : evalExpr W H env b = pure (.usize k)) :
    evalExpr W H env (.call .sizeofLen [] (.one b)) = pure (.usize (sizeof_len k)) := by
  simp only [evalExpr, evalArgs, Exprs.one, evalArg_val hb, pure_bind]
  rfl

theorem mul_eval {H : Host σ} {env : Env} {a b : Expr} {n k : Nat} (ha : evalExpr W H env a = pure (.usize n))
    (hb : evalExpr W H env b = pure (.usize k)) : evalExpr W H env (.bin .mul false a b) = pure (.usize (n * k)) := by
  simp only [evalExpr, ha, hb, pure_bind]
  rfl

theorem fixed_tree {t : FieldType} {s e : Expr} (hf : t.isFixedSize = true) (he : sizeTree t s = some e) :
    e = .num (if t.wireTypeNumNonPacked = 1 then 8 else 4) := by
  cases t <;> first | (cases hf; done) | (cases he; rfl)

theorem fixed_size {t : FieldType} (hf : t.isFixedSize = true) (v : RVal) :
    sizeTyp wr t v = if t.wireTypeNumNonPacked = 1 then 8 else 4 := by
  cases t <;> first | (cases hf; done) | rfl

theorem needs_primitive {t : FieldType} (h : t.isPrimitive = true) (hn : ∀ s, t ≠ .messageOrEnum s) : t.needToDereference = true := by
  cases t <;> first | (cases h; done) | rfl | exact absurd rfl (hn _)

theorem isPrimitive_of_needs {t : FieldType} (h : t.needToDereference = true) : t.isPrimitive = true := by
  cases t <;> first | (cases h; done) | rfl

theorem tyOf_resolved {D : FileDescriptor} {cfg : Config} {t : FieldType} {T : Ty} (h : tyOf D cfg t = some T) (s : Str) :
    t ≠ .messageOrEnum s := by
  rintro rfl
  cases h

/-- The summands of a field. -/
theorem size_field (A : Agree C W sub rd wr) {H : Host σ} {env : Env} {f : Field} (F : FieldIn C f) {Q : Field → RVal → Prop}
    {FT : Ty} {ts : List Expr} {v : RVal} (hFT : fieldTy C.D C.cfg f = some FT) (he : sizeTerms C.D C.cfg f = some ts)
    (hv : FieldTyped C Q sub f v) (hself : evalExpr W H env (selfDot f.name) = pure (.data FT.erase v)) {a : Expr} {n : Nat}
    (ha : evalExpr W H env a = pure (.usize n)) :
    evalExpr W H env (addTerms a ts) = pure (.usize (n + sizeField C wr f v)) := by
  have hFT' := hFT
  obtain ⟨T, hT, rfl⟩ := Option.map_eq_some_iff.mp hFT
  unfold sizeTerms at he
  unfold sizeField
  unfold FieldTyped at hv
  cases hg : f.frequency.generated <;> simp only [hg] at he hv hself ⊢
  · -- singular
    obtain ⟨d, hd, he⟩ := Option.bind_eq_some_iff.mp he
    obtain ⟨ms, hms, he⟩ := Option.bind_eq_some_iff.mp he
    obtain ⟨ss, hss, he⟩ := Option.bind_eq_some_iff.mp he
    have hmap := F.notMap hg
    cases hp : f.hasPresence <;> cases ho : f.frequency.isOptional <;> simp only [hp, ho] at he <;> (try (cases he; done)) <;> cases he
    · -- no presence
      have hb : f.boxed = false := by
        cases hb : f.boxed
        · rfl
        · have := F.ok.boxed hb; rw [ho] at this; cases this
      simp only [hb, ho, Bool.false_eq_true, if_false] at hv hself ⊢
      obtain ⟨hm, _⟩ := noPresence_scalar hg hmap hp
      have hde := default_eval A H env F hFT' hd
      have hsd : slotDefault C true (.field f) = fieldDefault C f := by
        simp only [slotDefault, hb, hg, ho]; rfl
      rw [hsd] at hde
      simp only [hb, hg, ho, Bool.false_eq_true, if_false] at hde
      have hc : evalExpr W H env (.bin .eq false (selfDot f.name) d) =
          pure (.data .bool (.bool (scalarEq f.typ v (fieldDefault C f)))) := by
        simp only [evalExpr, hself, hde, pure_bind, operator,
          eq_eval A hT (shaped hv.1 hm) (default_shaped A F hg hm (tyOf_resolved hT)), orStuck, Option.map_some]
      have hsz := size_eval A H hT hss hv.1 hself (tyOf_strip hT) (fun _ => rfl)
      refine addTerms_one ha ?_
      rw [ite_eval hc (num_eval H env 0) (sum_tag _ hsz)]
      split <;> rfl
    · -- required
      have hb : f.boxed = false := by
        cases hb : f.boxed
        · rfl
        · have := F.ok.boxed hb; rw [ho] at this; cases this
      simp only [hb, ho, Bool.false_eq_true, if_false] at hv hself ⊢
      have hsz := size_eval A H hT hss hv.1 hself (tyOf_strip hT) (fun _ => rfl)
      show evalExpr W H env (.bin .add false (.bin .add true a (.num (sizeofVarint f.tag))) ss) = _
      rw [sum_one W H env (sum_one W H env ha (num_eval H env _) true) hsz false, Nat.add_assoc]
    · -- optional
      simp only [ho, if_true] at hv
      refine addTerms_one ha ?_
      have hopt : ∃ U : Ty, (if f.boxed then (Ty.box T).option else T.option).erase = .option U ∧ U.strip = T.erase ∧
          (f.boxed = false → U = T.erase) := by
        cases hb : f.boxed
        · exact ⟨T.erase, rfl, tyOf_strip hT, fun _ => rfl⟩
        · exact ⟨.box T.erase, rfl, tyOf_strip hT, fun h => by cases h⟩
      obtain ⟨U, hU, hUs, hUb⟩ := hopt
      simp only [ho, if_true] at hself
      rw [hU] at hself
      have hasref : ∀ x, method W H (.data (.option U) x) .asRef none [] [] = pure (.data (.option (.ref U)) x) := fun _ => rfl
      rcases hv with rfl | ⟨x, rfl, hx⟩
      · simp only [evalExpr, evalArgs, evalArg, Exprs.one, hself, pure_bind, hasref]
        rfl
      · have hcall : ∀ (d : Val) (g : List Val → SM σ Val), method W H (.data (.option (.ref U)) (.some x)) .mapOr none [] [.val d, .fn g] =
            g [.data (.ref U) x] := fun _ _ => rfl
        simp only [evalExpr, evalArgs, evalArg, Exprs.one, hself, pure_bind, hasref, hcall, closure_amp]
        refine sum_tag _ (size_eval A H hT hms hx (var_eval H env _ _) (by rw [ampTy_strip, hUs]) ?_)
        intro hprim
        have hb : f.boxed = false := by
          cases hb : f.boxed
          · rfl
          · obtain ⟨i, hi⟩ := F.boxed hb
            rw [hi] at hprim
            cases hprim
        rw [hb, hprim]
        exact hUb hb
  · -- repeated
    have hb : f.boxed = false := by
      cases hb : f.boxed
      · rfl
      · have := generated_optional (F.ok.boxed hb); rw [hg] at this; cases this
    simp only [hb, Bool.false_eq_true, if_false] at hself
    cases hp : f.isPacked <;> simp only [hp, Bool.false_eq_true, if_false, if_true, Bool.false_and, Bool.true_and] at he hself ⊢
    · -- not packed
      have hpf : isPackedFixed f = false := by unfold isPackedFixed; rw [hp]; rfl
      rw [hpf] at hv
      simp only [Bool.false_eq_true, if_false] at hv
      obtain ⟨l, rfl, hl⟩ := hv
      have hlen : evalExpr W H env (.mcall (selfDot f.name) .len none [] .nil) = pure (.usize l.length) := by
        simp only [evalExpr, evalArgs, hself, pure_bind, meth_len]
        rfl
      by_cases h1 : f.typ.wireTypeNumNonPacked = 1
      · simp only [h1] at he ⊢
        cases he
        refine addTerms_one ha ?_
        refine mul_eval ?_ hlen
        show evalExpr W H env (.paren _) = _
        simp only [evalExpr]
        exact sum_tag _ (num_eval H env 8)
      · by_cases h5 : f.typ.wireTypeNumNonPacked = 5
        · simp only [h5] at he ⊢
          cases he
          refine addTerms_one ha ?_
          refine mul_eval ?_ hlen
          simp only [evalExpr]
          exact sum_tag _ (num_eval H env 4)
        · simp only [h1, h5, if_false]
          split at he
          · exact absurd ‹_› h1
          · exact absurd ‹_› h5
          obtain ⟨s, hs, rfl⟩ := Option.map_eq_some_iff.mp he
          refine addTerms_one ha ?_
          refine sumOver_eval (g := fun x => .data (.ref T.erase) x) hself rfl ?_
          intro x hx
          rw [closure_amp]
          refine sum_tag _ (size_eval A H hT hs (hl x hx) (var_eval H env _ _) (by rw [ampTy_strip, tyOf_strip hT]) ?_)
          intro hprim
          rw [needs_primitive hprim (tyOf_resolved hT)]
          rfl
    · -- packed
      have hpf : isPackedFixed f = f.typ.isFixedSize := by unfold isPackedFixed; rw [hp]; rfl
      obtain ⟨bd, hbd, he⟩ := Option.map_eq_some_iff.mp he
      subst he
      refine addTerms_one ha ?_
      cases hfx : f.typ.isFixedSize
      · rw [hpf, hfx] at hv
        simp only [Bool.false_eq_true, if_false] at hv
        obtain ⟨l, rfl, hl⟩ := hv
        simp only [hfx, Bool.false_and, Bool.false_eq_true, if_false] at hself
        have hemp : evalExpr W H env (.mcall (selfDot f.name) .isEmpty none [] .nil) = pure (.data .bool (.bool l.isEmpty)) := by
          simp only [evalExpr, evalArgs, hself, pure_bind, meth_isEmpty]
          rfl
        have h1 : f.typ.wireTypeNumNonPacked ≠ 1 := by
          intro h; unfold FieldType.isFixedSize at hfx; rw [h] at hfx; cases hfx
        have h5 : f.typ.wireTypeNumNonPacked ≠ 5 := by
          intro h; unfold FieldType.isFixedSize at hfx; rw [h] at hfx; cases hfx
        split at hbd
        · exact absurd ‹_› h1
        · exact absurd ‹_› h5
        obtain ⟨s, hs, rfl⟩ := Option.map_eq_some_iff.mp hbd
        have hsum : evalExpr W H env (sumOver (selfDot f.name) (.deref .s) s) = pure (.usize (l.map (sizeTyp wr f.typ)).sum) := by
          refine sumOver_eval (g := fun x => .data (.ref T.erase) x) hself rfl ?_
          intro x hx
          rw [closure_deref]
          exact size_eval A H hT hs (hl x hx) (var_eval H env _ _) (tyOf_strip hT) (fun _ => rfl)
        rw [ite_eval hemp (num_eval H env 0) (sum_tag _ (len_call hsum))]
        simp only
        split <;> rfl
      · have hcow := F.cow (hpf.trans hfx)
        rw [hpf, hfx] at hv
        simp only [hfx, hcow, Bool.not_false, Bool.and_self, if_true] at hself hv
        by_cases h1 : f.typ.wireTypeNumNonPacked = 1
        · simp only [h1, if_true] at hv hbd
          obtain ⟨p, rfl, hpk⟩ := hv
          cases hbd
          have hemp : evalExpr W H env (.mcall (selfDot f.name) .isEmpty none [] .nil) = pure (.data .bool (.bool p.is_empty)) := by
            simp only [evalExpr, evalArgs, hself, pure_bind, meth_isEmpty]
            rfl
          have hlen : evalExpr W H env (.mcall (selfDot f.name) .len none [] .nil) = pure (.usize (pfLen (MemTy.int C.T 8) p)) := by
            simp only [evalExpr, evalArgs, hself, pure_bind, meth_len]
            rw [← A.T]
            rfl
          rw [ite_eval hemp (num_eval H env 0) (sum_tag _ (len_call (mul_eval hlen (num_eval H env 8))))]
          simp only
          split <;> rfl
        · simp only [h1, if_false] at hv
          obtain ⟨p, rfl, hpk⟩ := hv
          have h5 : f.typ.wireTypeNumNonPacked = 5 := by
            unfold FieldType.isFixedSize at hfx
            simp [h1] at hfx
            exact hfx
          simp only [h5] at hbd
          cases hbd
          have hemp : evalExpr W H env (.mcall (selfDot f.name) .isEmpty none [] .nil) = pure (.data .bool (.bool p.is_empty)) := by
            simp only [evalExpr, evalArgs, hself, pure_bind, meth_isEmpty]
            rfl
          have hlen : evalExpr W H env (.mcall (selfDot f.name) .len none [] .nil) = pure (.usize (pfLen (MemTy.int C.T 4) p)) := by
            simp only [evalExpr, evalArgs, hself, pure_bind, meth_len]
            rw [← A.T]
            rfl
          rw [ite_eval hemp (num_eval H env 0) (sum_tag _ (len_call (mul_eval hlen (num_eval H env 4))))]
          simp only
          split <;> rfl
  · -- map
    have hb : f.boxed = false := by
      cases hb : f.boxed
      · rfl
      · have := generated_optional (F.ok.boxed hb); rw [hg] at this; cases this
    simp only [hb, Bool.false_eq_true, if_false] at hself
    obtain ⟨k, t, l, ht, rfl, hl, _⟩ := hv
    simp only [ht] at he hT ⊢
    obtain ⟨e, hen, rfl⟩ := Option.map_eq_some_iff.mp he
    obtain ⟨ks, hks, he⟩ := Option.bind_eq_some_iff.mp hen
    obtain ⟨vs, hvs, rfl⟩ := Option.map_eq_some_iff.mp he
    obtain ⟨tk, tv, htk, htv, rfl⟩ := tyOf_map hT
    refine addTerms_one ha ?_
    refine sumOver_eval (g := fun e => .pair (.data (.ref tk.erase) e.1) (.data (.ref tv.erase) e.2)) hself rfl ?_
    intro x hx
    have hcl : ∀ kk : Env → SM σ Val, closure W env [.pair (patAmp k.needToDereference .k) (patAmp t.needToDereference .v)] kk
        [.pair (.data (.ref tk.erase) x.1) (.data (.ref tv.erase) x.2)] =
        kk ((env.set .k (.data (ampTy k.needToDereference tk.erase) x.1)).set .v (.data (ampTy t.needToDereference tv.erase) x.2)) := by
      intro kk
      simp only [closure, bindParams, matchPat, match_amp]
    rw [hcl]
    refine sum_tag _ (len_call ?_)
    unfold sizeEntry
    have h1 := size_eval A H htk hks (hl x hx).1 (env := (env.set .k (.data (ampTy k.needToDereference tk.erase) x.1)).set .v
      (.data (ampTy t.needToDereference tv.erase) x.2)) (t' := ampTy k.needToDereference tk.erase)
      (by simp only [evalExpr]; rw [Env.set_other _ _ (by decide), Env.set_same]; rfl)
      (by rw [ampTy_strip, tyOf_strip htk]) (fun hprim => by rw [needs_primitive hprim (tyOf_resolved htk)]; rfl)
    have h2 := size_eval A H htv hvs (hl x hx).2 (env := (env.set .k (.data (ampTy k.needToDereference tk.erase) x.1)).set .v
      (.data (ampTy t.needToDereference tv.erase) x.2)) (t' := ampTy t.needToDereference tv.erase) (var_eval H _ _ _)
      (by rw [ampTy_strip, tyOf_strip htv]) (fun hprim => by rw [needs_primitive hprim (tyOf_resolved htv)]; rfl)
    exact sum_one W H _ (sum_tag _ h1) h2 false

end

end QP.Rust
