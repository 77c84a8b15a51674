import Verif.Proofs.EvalOneof
set_option linter.unusedVariables false
set_option linter.unusedSimpArgs false
/-!
Running the generated `write_message`.
-/

namespace QP.Rust
open QP.Pbrs QP.Gen QP.BytesReader

section
variable {C : Ctx} {W : World} {sub : MessageIndex → RVal → Prop} {rd : MessageIndex → Bytes → RM RVal}
  {wr : MessageIndex → MessageWrite RVal} {σ : Type} [WriterBackend σ]

theorem Env.set_self {env : Env} {x : Var} {v : Val} (h : env x = some v) : env.set x v = env := by
  funext y
  unfold Env.set
  split
  · rename_i hy; rw [hy, h]
  · rfl

theorem writeWith_eval {f : List Val → SM σ Val} {args : List Val} {a : SM σ Unit}
    (h : f (.writer :: args) = result (do a; pure .unit)) : writeWith f args = a := by
  unfold writeWith
  rw [h, result_unwrap_bind, bind_assoc]
  exact bind_unit a

theorem closure_w {env : Env} (hw : env .w = some .writer) (k : Env → SM σ Val) : closure W env [.var .w] k [.writer] = k env := by
  rw [closure_var, Env.set_self hw]

theorem meth_withTag (W : World) (n : Nat) (f : List Val → SM σ Val) :
    method W (writerHost (σ := σ) W) .writer .writeWithTag none [] [.val (.usize n), .fn f] =
      result (do write_with_tag (BitVec.ofNat 32 n) (writeWith f []); pure .unit) := rfl

theorem withTag_eval {env : Env} (hw : env .w = some .writer) {e : Expr} {a : SM σ Unit} {tag : BitVec 32}
    (he : evalExpr W (writerHost (σ := σ) W) env e = result (do a; pure .unit)) :
    evalExpr W (writerHost (σ := σ) W) env (withTag tag e) = result (do write_with_tag tag a; pure .unit) := by
  have h1 : writeWith (closure W env [.var .w] fun env => evalExpr W (writerHost (σ := σ) W) env e) [] = a :=
    writeWith_eval (by rw [closure_w hw]; exact he)
  have h2 : (BitVec.ofNat 32 tag.toNat) = tag := by simp
  simp only [withTag, writeClosure, evalExpr, evalArgs, evalArg, Exprs.one, pure_bind, hw, orStuck, meth_withTag, h1, h2]

theorem try_eval {H : Host σ} {env : Env} {e : Expr} {a : SM σ Val} (he : evalExpr W H env e = result a) :
    evalExpr W H env (.try_ e) = a := by
  rw [evalExpr, he, result_unwrap]

/-- The condition of arguments of `write_*`, for what variables bound to elements are. -/
theorem writeArg_amp {D : FileDescriptor} {cfg : Config} {t : FieldType} {T : Ty} (hT : tyOf D cfg t = some T) (hm : t.isMap = false) :
    WriteArg t T.erase false (ampTy t.needToDereference T.erase) := by
  cases t
  case messageOrEnum => cases hT
  case message => rfl
  case map => cases hm
  case stringCow => exact ⟨_, rfl, tyOf_strip hT⟩
  case string_ => exact ⟨_, rfl, tyOf_strip hT⟩
  case bytesCow => exact ⟨_, rfl, tyOf_strip hT⟩
  case bytes_ => exact ⟨_, rfl, tyOf_strip hT⟩
  all_goals rfl

theorem hasType_notMap {t : FieldType} {v : RVal} (h : HasType C sub t v) : t.isMap = false := by
  cases t <;> first | rfl | (cases h; done)

/-- The argument of a field that is not optional. -/
theorem unwrap_self {H : Host σ} {env : Env} {f : Field} {T : Ty} (hT : tyOf C.D C.cfg f.typ = some T) (hm : f.typ.isMap = false)
    (hb : f.boxed = false) (ho : f.frequency.isOptional = false) {s : Expr} {v : RVal} (hs : evalExpr W H env s = pure (.data T.erase v)) :
    ∃ t', evalExpr W H env (unwrapTree f false s) = pure (.data t' v) ∧ WriteArg f.typ T.erase f.boxed t' := by
  rw [hb]
  have hstrip := tyOf_strip hT
  have hres := tyOf_resolved hT
  have href : evalExpr W H env (.ref s) = pure (.data (.ref T.erase) v) := by
    simp only [evalExpr, hs, pure_bind]; rfl
  unfold unwrapTree
  rw [hb, ho]
  cases ht : f.typ <;> rw [ht] at hm hT hres
  case messageOrEnum => exact absurd rfl (hres _)
  case map => cases hm
  case message => exact ⟨_, href, rfl⟩
  case stringCow => exact ⟨_, href, _, rfl, hstrip⟩
  case string_ => exact ⟨_, href, _, rfl, hstrip⟩
  case bytesCow => exact ⟨_, href, _, rfl, hstrip⟩
  case bytes_ => exact ⟨_, href, _, rfl, hstrip⟩
  all_goals exact ⟨_, hs, rfl⟩

/-- The argument of an optional field. -/
theorem unwrap_opt {H : Host σ} {env : Env} {f : Field} {T U : Ty} (hT : tyOf C.D C.cfg f.typ = some T) (hm : f.typ.isMap = false)
    (hbm : f.boxed = true → ∃ i, f.typ = .message i) (ho : f.frequency.isOptional = true) (hU : U = if f.boxed then .box T.erase else T.erase)
    {v : RVal} : ∃ t', evalExpr W H (env.set .m (.data (ampTy (!(f.boxed || !f.typ.isPrimitive)) U) v)) (unwrapTree f false (.var .m)) =
      pure (.data t' v) ∧ WriteArg f.typ T.erase f.boxed t' := by
  have hstrip := tyOf_strip hT
  have hres := tyOf_resolved hT
  unfold unwrapTree
  rw [ho]
  cases hb : f.boxed
  · rw [hb] at hU
    subst hU
    have hvar := fun t' => var_eval (W := W) H env .m (.data t' v)
    have href : evalExpr W H (env.set .m (.data (.ref T.erase) v)) (.ref (.var .m)) = pure (.data (.ref (.ref T.erase)) v) := by
      rw [evalExpr, hvar]; rfl
    cases ht : f.typ <;> rw [ht] at hm hT hres
    case messageOrEnum => exact absurd rfl (hres _)
    case map => cases hm
    case message => exact ⟨_, hvar _, rfl⟩
    case stringCow => exact ⟨_, href, _, rfl, hstrip⟩
    case string_ => exact ⟨_, href, _, rfl, hstrip⟩
    case bytesCow => exact ⟨_, href, _, rfl, hstrip⟩
    case bytes_ => exact ⟨_, href, _, rfl, hstrip⟩
    all_goals exact ⟨_, hvar _, rfl⟩
  · rw [hb] at hU
    subst hU
    obtain ⟨i, hi⟩ := hbm hb
    rw [hi]
    refine ⟨.box T.erase, ?_, Or.inr rfl⟩
    show evalExpr W H _ (.deref (.paren (.var .m))) = _
    simp only [evalExpr, Env.set_same, orStuck, pure_bind]
    rfl

/-- A statement `e?;` that writes. -/
theorem exprStmt_eval {env : Env} {e : Expr} {a : SM σ Unit}
    (he : evalExpr W (writerHost (σ := σ) W) env e = result (do a; pure .unit)) :
    evalStmt W (writerHost (σ := σ) W) env (.expr (.try_ e)) = (do a; pure env) := by
  show (evalExpr W _ env (.try_ e) >>= fun _ => pure env) = _
  rw [try_eval he, bind_assoc]
  rfl

/-- `for`. -/
theorem forEach_eval {α : Type} {body : Val → SM σ Unit} {g : α → Val} {k : α → SM σ Unit} : ∀ {l : List α},
    (∀ x ∈ l, body (g x) = k x) → forEach body (l.map g) = writeEach k l
  | [], _ => rfl
  | x :: l, h => by
    rw [List.map_cons, forEach, writeEach, h x (by simp), forEach_eval fun y hy => h y (by simp [hy])]

theorem for_eval {α : Type} {env : Env} {p : Pat} {e b : Expr} {v : Val} {g : α → Val} {l : List α} {k : α → SM σ Unit}
    (he : evalExpr W (writerHost (σ := σ) W) env e = pure v) (hv : elements v = some (l.map g))
    (hb : ∀ x ∈ l, closure W env [p] (fun env => evalExpr W (writerHost (σ := σ) W) env b) [g x] = (do k x; pure .unit)) :
    evalStmt W (writerHost (σ := σ) W) env (.for_ p e b) = (do writeEach k l; pure env) := by
  have h1 := forEach_eval (body := fun v => do
      let _ ← closure W env [p] (fun env => evalExpr W (writerHost (σ := σ) W) env b) [v]
      pure ()) (g := g) (k := k) (l := l) (by
    intro x hx
    show (closure W env [p] _ [g x] >>= fun _ => pure ()) = _
    rw [hb x hx, bind_assoc]
    exact bind_unit _)
  simp only [evalStmt, he, pure_bind, hv, orStuck, h1]

theorem writePacked_eval {tag : BitVec 32} {t : Ty} {l : List RVal} {f s : List Val → SM σ Val} {w : RVal → SM σ Unit} {sz : RVal → Nat}
    (hf : ∀ x ∈ l, f [.writer, .data (.ref t) x] = result (do w x; pure .unit))
    (hs : ∀ x ∈ l, s [.data (.ref t) x] = pure (.usize (sz x))) : writePacked tag t l f s = write_packed_with_tag tag l w sz := by
  unfold writePacked write_packed_with_tag
  rw [mapIter_pure hs]
  simp only [pure_bind, sumIter_pure]
  split
  · rfl
  · congr 1
    funext _
    congr 1
    funext _
    have : ∀ {l' : List RVal}, (∀ x ∈ l', x ∈ l) → writeEach (fun x => writeWith f [.data (.ref t) x]) l' = writeEach w l' := by
      intro l'
      induction l' with
      | nil => intro _; rfl
      | cons x l' ih =>
        intro h
        rw [writeEach, writeEach, ih fun y hy => h y (by simp [hy]), writeWith_eval (hf x (h x (by simp)))]
    exact this fun _ h => h

theorem env_set_w {env : Env} (hw : env .w = some .writer) {x : Var} (hx : x ≠ .w) (v : Val) : (env.set x v) .w = some .writer := by
  rw [Env.set_other _ _ (Ne.symm hx)]; exact hw

/-- The type of a repeated field. -/
def fieldArr (C : Ctx) (f : Field) (T : Ty) : Ty := if f.isPacked && f.typ.isFixedSize && !C.cfg.dontUseCow then .packed T else .vec T

/-- `w.write_map(..)`. -/
theorem map_eval (A : Agree C W sub rd wr) {env : Env} (hw : env .w = some .writer) {k t : FieldType} {tk tv : Ty}
    (htk : tyOf C.D C.cfg k = some tk) (htv : tyOf C.D C.cfg t = some tv) {e : Expr} (he : writeMapTree k t = some e) {a b : RVal}
    (ha : HasType C sub k a) (hb : HasType C sub t b)
    (hk : evalExpr W (writerHost (σ := σ) W) env (.var .k) = pure (.data (ampTy k.needToDereference tk.erase) a))
    (hv : evalExpr W (writerHost (σ := σ) W) env (.var .v) = pure (.data (ampTy t.needToDereference tv.erase) b)) :
    evalExpr W (writerHost (σ := σ) W) env e = result (do
      write_map (sizeEntry wr k t (a, b)) (Pbrs.tag 1 k false) (writeTyp wr k a) (Pbrs.tag 2 t false) (writeTyp wr t b); pure .unit) := by
  obtain ⟨size, hsz, he⟩ := Option.bind_eq_some_iff.mp he
  obtain ⟨kw, hkw, he⟩ := Option.bind_eq_some_iff.mp he
  obtain ⟨vw, hvw, rfl⟩ := Option.map_eq_some_iff.mp he
  obtain ⟨ks, hks, he⟩ := Option.bind_eq_some_iff.mp hsz
  obtain ⟨vs, hvs, rfl⟩ := Option.map_eq_some_iff.mp he
  have h1 := size_eval A _ htk hks ha hk (by rw [ampTy_strip, tyOf_strip htk])
    (fun hprim => by rw [needs_primitive hprim (tyOf_resolved htk)]; rfl)
  have h2 := size_eval A _ htv hvs hb hv (by rw [ampTy_strip, tyOf_strip htv])
    (fun hprim => by rw [needs_primitive hprim (tyOf_resolved htv)]; rfl)
  have hs : evalExpr W (writerHost (σ := σ) W) env (sum (.num 2) [ks, vs]) = pure (.usize (sizeEntry wr k t (a, b))) :=
    sum_one W _ _ (sum_tag _ h1) h2 false
  have hm : ∀ (n i j : Nat) (g s : List Val → SM σ Val), method W (writerHost (σ := σ) W) .writer .writeMap none []
      [.val (.usize n), .val (.usize i), .fn g, .val (.usize j), .fn s] =
      result (do write_map n (BitVec.ofNat 32 i) (writeWith g []) (BitVec.ofNat 32 j) (writeWith s []); pure .unit) :=
    fun _ _ _ _ _ => rfl
  have hkf : writeWith (closure W env [.var .w] fun env => evalExpr W (writerHost (σ := σ) W) env kw) [] = writeTyp wr k a :=
    writeWith_eval (by rw [closure_w hw]; exact write_eval A hw htk hkw ha hk (writeArg_amp htk (hasType_notMap ha)))
  have hvf : writeWith (closure W env [.var .w] fun env => evalExpr W (writerHost (σ := σ) W) env vw) [] = writeTyp wr t b :=
    writeWith_eval (by rw [closure_w hw]; exact write_eval A hw htv hvw hb hv (writeArg_amp htv (hasType_notMap hb)))
  have hn : ∀ t : BitVec 32, BitVec.ofNat 32 t.toNat = t := by simp
  rw [evalExpr, evalExpr, hw, evalArgs, evalArg_val hs]
  simp only [evalArgs, evalArg, evalExpr, writeClosure, Exprs.one, pure_bind, orStuck, hm, hkf, hvf, hn]

/-- The statement of a field. -/
theorem write_field (A : Agree C W sub rd wr) {env : Env} (hw : env .w = some .writer) {f : Field} (F : FieldIn C f)
    {Q : Field → RVal → Prop} {FT : Ty} {st : Stmt} {v : RVal} (hFT : fieldTy C.D C.cfg f = some FT)
    (he : writeStmt C.D C.cfg f = some st) (hv : FieldTyped C Q sub f v)
    (hself : evalExpr W (writerHost (σ := σ) W) env (selfDot f.name) = pure (.data FT.erase v)) :
    evalStmt W (writerHost (σ := σ) W) env st = (do writeField C wr f v; pure env) := by
  have hFT' := hFT
  obtain ⟨T, hT, rfl⟩ := Option.map_eq_some_iff.mp hFT
  unfold writeStmt at he
  unfold writeField
  unfold FieldTyped at hv
  cases hg : f.frequency.generated <;> simp only [hg] at he hv hself ⊢
  · -- singular
    obtain ⟨d, hd, he⟩ := Option.bind_eq_some_iff.mp he
    obtain ⟨mw, hmw, he⟩ := Option.bind_eq_some_iff.mp he
    obtain ⟨sw, hsw, he⟩ := Option.bind_eq_some_iff.mp he
    have hmap := F.notMap hg
    cases hp : f.hasPresence <;> cases ho : f.frequency.isOptional <;> simp only [hp, ho] at he <;> (try (cases he; done)) <;> cases he
    · -- no presence
      have hb : f.boxed = false := by
        cases hb : f.boxed
        · rfl
        · have := F.ok.boxed hb; rw [ho] at this; cases this
      simp only [hb, ho, Bool.false_eq_true, if_false] at hv hself hsw ⊢
      obtain ⟨hm, _⟩ := noPresence_scalar hg hmap hp
      have hde := default_eval A (writerHost (σ := σ) W) env F hFT' hd
      have hsd : slotDefault C true (.field f) = fieldDefault C f := by
        simp only [slotDefault, hb, hg, ho]; rfl
      rw [hsd] at hde
      simp only [hb, hg, ho, Bool.false_eq_true, if_false] at hde
      have hun : unwrapTree f true (selfDot f.name) = selfDot f.name := by
        unfold unwrapTree
        rw [hb, ho]
        have hres := tyOf_resolved hT
        cases ht : f.typ <;> rw [ht] at hm hmap hres <;>
          first | rfl | (cases hm; done) | (cases hmap; done) | exact absurd rfl (hres _)
      have hc : evalExpr W (writerHost (σ := σ) W) env (.bin .ne false (unwrapTree f true (selfDot f.name)) d) =
          pure (.data .bool (.bool (!scalarEq f.typ v (fieldDefault C f)))) := by
        simp only [hun, evalExpr, hself, hde, pure_bind, operator,
          eq_eval A hT (shaped hv.1 hm) (default_shaped A F hg hm (tyOf_resolved hT)), orStuck, Option.map_some]
      obtain ⟨t', ht', hwa⟩ := unwrap_self hT hmap hb ho hself
      rw [hb] at hwa
      have hwr := withTag_eval (tag := f.tag) hw (write_eval A hw hT hsw hv.1 ht' hwa)
      have hbool : ∀ b, expectBool (σ := σ) (.data .bool (.bool b)) = pure b := fun _ => rfl
      simp only [evalStmt, hc, pure_bind, hbool, try_eval hwr, bind_assoc, pure_bind]
      cases scalarEq f.typ v (fieldDefault C f) <;> rfl
    · -- required
      have hb : f.boxed = false := by
        cases hb : f.boxed
        · rfl
        · have := F.ok.boxed hb; rw [ho] at this; cases this
      simp only [hb, ho, Bool.false_eq_true, if_false] at hv hself hsw ⊢
      obtain ⟨t', ht', hwa⟩ := unwrap_self hT hmap hb ho hself
      rw [hb] at hwa
      exact exprStmt_eval (withTag_eval hw (write_eval A hw hT hsw hv.1 ht' hwa))
    · -- optional
      simp only [ho, if_true] at hv
      have hopt : ∃ U : Ty, (if f.boxed then (Ty.box T).option else T.option).erase = .option U ∧
          U = if f.boxed then .box T.erase else T.erase := by
        cases hb : f.boxed
        · exact ⟨T.erase, rfl, rfl⟩
        · exact ⟨.box T.erase, rfl, rfl⟩
      obtain ⟨U, hU, hUb⟩ := hopt
      simp only [ho, if_true] at hself
      rw [hU] at hself
      have hasref : ∀ x, method W (writerHost (σ := σ) W) (.data (.option U) x) .asRef none [] [] =
        pure (.data (.option (.ref U)) x) := fun _ => rfl
      have hok : evalExpr W (writerHost (σ := σ) W) env (.call .ok [] (.one .unit)) = pure (.ok .unit) := by
        simp only [evalExpr, evalArgs, evalArg, Exprs.one, pure_bind]
        rfl
      rcases hv with rfl | ⟨x, rfl, hx⟩
      · refine exprStmt_eval ?_
        simp only [evalExpr, evalArgs, evalArg, Exprs.one, hself, pure_bind, hasref]
        rfl
      · have hcall : ∀ (d : Val) (g : List Val → SM σ Val), method W (writerHost (σ := σ) W) (.data (.option (.ref U)) (.some x)) .mapOr
            none [] [.val d, .fn g] = g [.data (.ref U) x] := fun _ _ => rfl
        obtain ⟨t', ht', hwa⟩ := unwrap_opt (env := env) (H := writerHost (σ := σ) W) hT hmap F.boxed ho hUb (v := x)
        have hw' : (env.set .m (.data (ampTy (!(f.boxed || !f.typ.isPrimitive)) U) x)) .w = some .writer :=
          env_set_w hw (by decide) _
        have := withTag_eval (tag := f.tag) hw' (write_eval A hw' hT hmw hx ht' hwa)
        refine exprStmt_eval ?_
        rw [evalExpr, evalExpr, hself, pure_bind, evalArgs, pure_bind, hasref, pure_bind, evalArgs, evalArg_val hok, pure_bind,
          Exprs.one, evalArgs, evalArg, pure_bind, evalArgs, pure_bind, pure_bind, pure_bind, hcall, closure_amp, this]
  · -- repeated
    have hb : f.boxed = false := by
      cases hb : f.boxed
      · rfl
      · have := generated_optional (F.ok.boxed hb); rw [hg] at this; cases this
    simp only [hb, Bool.false_eq_true, if_false] at hself
    cases hp : f.isPacked <;> simp only [hp, Bool.false_eq_true, if_false, if_true, Bool.false_and, Bool.true_and] at he hself ⊢
    · -- not packed
      have hpf : isPackedFixed f = false := by unfold isPackedFixed; rw [hp]; rfl
      rw [hpf] at hv
      simp only [Bool.false_eq_true, if_false] at hv
      obtain ⟨l, rfl, hl⟩ := hv
      rw [hb] at he
      obtain ⟨w, hwt, rfl⟩ := Option.map_eq_some_iff.mp he
      have href : evalExpr W (writerHost (σ := σ) W) env (.ref (selfDot f.name)) = pure (.data (.ref (.vec T.erase)) (.vec l)) := by
        simp only [evalExpr, hself, pure_bind]; rfl
      refine for_eval (g := fun x => .data (.ref T.erase) x) href rfl ?_
      intro x hx
      rw [closure_var]
      have hw' : (env.set .s (.data (.ref T.erase) x)) .w = some .writer := env_set_w hw (by decide) _
      refine try_eval (withTag_eval hw' (write_eval A hw' hT hwt (hl x hx) (t' := ampTy f.typ.needToDereference T.erase) ?_
        (writeArg_amp hT (hasType_notMap (hl x hx)))))
      cases f.typ.needToDereference
      · exact var_eval _ _ _ _
      · simp only [if_true, evalExpr, Env.set_same, orStuck, pure_bind]
        rfl
    · -- packed
      have hpf : isPackedFixed f = f.typ.isFixedSize := by unfold isPackedFixed; rw [hp]; rfl
      have href : evalExpr W (writerHost (σ := σ) W) env (.ref (selfDot f.name)) = pure (.data (.ref (fieldArr C f T).erase) v) := by
        simp only [evalExpr, hself, pure_bind]
        simp only [fieldArr, hp, Bool.true_and]
        rfl
      have h2 : (BitVec.ofNat 32 f.tag.toNat) = f.tag := by simp
      cases hfx : f.typ.isFixedSize
      · rw [hpf, hfx] at hv
        simp only [Bool.false_eq_true, if_false] at hv
        obtain ⟨l, rfl, hl⟩ := hv
        simp only [hfx, hb, Bool.false_eq_true, if_false] at he
        obtain ⟨w, hwt, he⟩ := Option.bind_eq_some_iff.mp he
        obtain ⟨s, hst, rfl⟩ := Option.map_eq_some_iff.mp he
        have hty : (fieldArr C f T).erase = .vec T.erase := by
          simp only [fieldArr, hp, hfx, Bool.true_and, Bool.false_and, Bool.false_eq_true, if_false]
          rfl
        rw [hty] at href
        have hprim := F.ok.packed (generated_array hg) hp
        have hamp := needs_primitive hprim (tyOf_resolved hT)
        refine exprStmt_eval ?_
        have hm : ∀ (n : Nat) (g s : List Val → SM σ Val), method W (writerHost (σ := σ) W) .writer .writePackedWithTag none []
            [.val (.usize n), .val (.data (.ref (.vec T.erase)) (.vec l)), .fn g, .fn s] =
            result (do writePacked (BitVec.ofNat 32 n) T.erase l g s; pure .unit) := fun _ _ _ => rfl
        rw [evalExpr, evalExpr, hw, evalArgs, evalArg_val (num_eval _ _ _), evalArgs, evalArg_val href, evalArgs, evalArg, evalArgs.eq_def]
        simp only [Exprs.one, evalArgs, evalArg, pure_bind, orStuck, hm, h2]
        rw [writePacked_eval (w := writeTyp wr f.typ) (sz := sizeTyp wr f.typ)]
        · simp only [Bool.false_eq_true, if_false]
        · intro x hx
          have hcl : ∀ kk : Env → SM σ Val, closure W env [.var .w, .deref .m] kk [.writer, .data (.ref T.erase) x] =
              kk ((env.set .w .writer).set .m (.data T.erase x)) := fun _ => rfl
          rw [hcl, Env.set_self hw]
          refine write_eval A (env_set_w hw (by decide) _) hT hwt (hl x hx) (var_eval _ _ _ _) ?_
          have := writeArg_amp hT (hasType_notMap (hl x hx))
          rw [hamp] at this
          exact this
        · intro x hx
          rw [closure_deref]
          exact size_eval A _ hT hst (hl x hx) (var_eval _ env _ _) (tyOf_strip hT) (fun _ => rfl)
      · have hcow := F.cow (hpf.trans hfx)
        have hty : (fieldArr C f T).erase = .packed T.erase := by
          simp only [fieldArr, hp, hfx, hcow]
          rfl
        rw [hty] at href
        rw [hpf, hfx] at hv
        simp only [hfx, if_true] at hv he ⊢
        cases he
        by_cases h1 : f.typ.wireTypeNumNonPacked = 1
        · simp only [h1, if_true] at hv
          obtain ⟨p, rfl, hpk⟩ := hv
          have hm : ∀ (n : Nat), method W (writerHost (σ := σ) W) .writer .writePackedFixedWithTag none []
            [.val (.usize n), .val (.data (.ref (.packed T.erase)) (.pf64 p))] =
            result (do write_packed_fixed_with_tag (MemTy.int W.T 8) (BitVec.ofNat 32 n) p; pure .unit) := fun _ => rfl
          refine exprStmt_eval ?_
          rw [evalExpr, evalExpr, hw, evalArgs, evalArg_val (num_eval _ _ _), Exprs.one, evalArgs, evalArg_val href, evalArgs]
          simp only [pure_bind, orStuck, hm, h2, A.T]
        · simp only [h1, if_false] at hv
          obtain ⟨p, rfl, hpk⟩ := hv
          have hm : ∀ (n : Nat), method W (writerHost (σ := σ) W) .writer .writePackedFixedWithTag none []
            [.val (.usize n), .val (.data (.ref (.packed T.erase)) (.pf32 p))] =
            result (do write_packed_fixed_with_tag (MemTy.int W.T 4) (BitVec.ofNat 32 n) p; pure .unit) := fun _ => rfl
          refine exprStmt_eval ?_
          rw [evalExpr, evalExpr, hw, evalArgs, evalArg_val (num_eval _ _ _), Exprs.one, evalArgs, evalArg_val href, evalArgs]
          simp only [pure_bind, orStuck, hm, h2, A.T]
  · -- map
    have hb : f.boxed = false := by
      cases hb : f.boxed
      · rfl
      · have := generated_optional (F.ok.boxed hb); rw [hg] at this; cases this
    simp only [hb, Bool.false_eq_true, if_false] at hself
    obtain ⟨k, t, l, ht, rfl, hl, _⟩ := hv
    simp only [ht] at he hT ⊢
    obtain ⟨w, hwm, rfl⟩ := Option.map_eq_some_iff.mp he
    obtain ⟨tk, tv, htk, htv, rfl⟩ := tyOf_map hT
    have hit : evalExpr W (writerHost (σ := σ) W) env (.mcall (selfDot f.name) .iter none [] .nil) =
        pure (.iter (l.map fun e => .pair (.data (.ref tk.erase) e.1) (.data (.ref tv.erase) e.2))) := by
      simp only [evalExpr, evalArgs, hself, pure_bind, meth_iter]
      rfl
    refine for_eval hit rfl ?_
    intro x hx
    have hcl : ∀ kk : Env → SM σ Val, closure W env [.pair (patAmp k.needToDereference .k) (patAmp t.needToDereference .v)] kk
        [.pair (.data (.ref tk.erase) x.1) (.data (.ref tv.erase) x.2)] =
        kk ((env.set .k (.data (ampTy k.needToDereference tk.erase) x.1)).set .v (.data (ampTy t.needToDereference tv.erase) x.2)) := by
      intro kk
      simp only [closure, bindParams, matchPat, match_amp]
    rw [hcl]
    have hw' : ((env.set .k (.data (ampTy k.needToDereference tk.erase) x.1)).set .v
      (.data (ampTy t.needToDereference tv.erase) x.2)) .w = some .writer := env_set_w (env_set_w hw (by decide) _) (by decide) _
    refine try_eval (withTag_eval hw' (map_eval A hw' htk htv hwm (hl x hx).1 (hl x hx).2 ?_ (var_eval _ _ _ _)))
    simp only [evalExpr]; rw [Env.set_other _ _ (by decide), Env.set_same]; rfl

/-- The statement of a oneof. -/
theorem write_oneof (A : Agree C W sub rd wr) {env : Env} (hw : env .w = some .writer) (hmsg : env .msg = none) {o : OneOf}
    (O : OneofIn C o) {st : Stmt} {v : RVal} (he : oneofWrite C.D C.cfg o = some st) {Q : Field → RVal → Prop}
    (hv : MemberTyped C Q sub (.oneof (o.shown C.cfg)) v)
    (hself : evalExpr W (writerHost (σ := σ) W) env (selfDot o.name) = pure (.data (.adt (oneofPath C.D o) false) v)) :
    evalStmt W (writerHost (σ := σ) W) env st = (do writeMember C wr (.oneof (o.shown C.cfg)) v; pure env) := by
  obtain ⟨as, has, rfl⟩ := Option.map_eq_some_iff.mp he
  obtain ⟨vs, hW, _, hn, hty⟩ := oneof_variants A O
  have harm : ∀ f a, oneofWriteTree C.D o f = some a → ∃ q, a.1 = .variant (oneofPath C.D o) f.name q := by
    intro f a h
    obtain ⟨s, _, rfl⟩ := Option.map_eq_some_iff.mp h
    exact ⟨_, rfl⟩
  have hleave : ∀ env' : Env, env' .msg = none → env.leave env' = env := by
    intro env' h
    funext x
    unfold Env.leave
    split
    · rename_i hx; rw [hx, h, hmsg]
    · rfl
  have href : evalExpr W (writerHost (σ := σ) W) env (.ref (selfDot o.name)) = pure (.data (.ref (.adt (oneofPath C.D o) false)) v) := by
    rw [evalExpr, hself]; rfl
  rw [evalStmt, href, pure_bind]
  rcases hv with rfl | ⟨i, f, x, hf, rfl, hx⟩
  · rw [stmtArms_skip]
    · rw [evalStmtArms]
      simp only [matchPat, if_true, hW, evalArm, pure_bind, hleave env hmsg]
      rfl
    · intro b hb
      obtain ⟨j, hj, hbj⟩ := List.mem_iff_getElem.mp hb
      obtain ⟨g, hg, hgb⟩ := mapM_get' has (j := j) (by rw [List.getElem?_eq_getElem hj, hbj])
      obtain ⟨q, hq⟩ := harm g b hgb
      rw [hq, match_variant_none hW]
  · obtain ⟨a, post, hsplit, hfa, hpre⟩ := pre_names harm has hn hf
    obtain ⟨T, hT, hvi⟩ := hty i f hf
    rw [hsplit, List.append_assoc, stmtArms_skip]
    · obtain ⟨w, hwt, rfl⟩ := Option.map_eq_some_iff.mp hfa
      have hwm : writeMember (W := σ) C wr (.oneof (o.shown C.cfg)) (.choice i x) = write_with_tag f.tag (writeTyp wr f.typ x) := by
        simp only [writeMember, hf]
      rw [List.cons_append, evalStmtArms, match_variant hW hvi, if_pos rfl, matchPat, hwm]
      have hw' : (env.set .m (.data (.ref (if f.boxed then .box T.erase else T.erase)) x)) .w = some .writer :=
        env_set_w hw (by decide) _
      have hm' : (env.set .m (.data (.ref (if f.boxed then .box T.erase else T.erase)) x)) .msg = none := by
        rw [Env.set_other _ _ (by decide)]; exact hmsg
      have hval : ∃ t', evalExpr W (writerHost (σ := σ) W) (env.set .m (.data (.ref (if f.boxed then .box T.erase else T.erase)) x))
          (if f.typ.needToDereference || f.boxed then .deref (.var .m) else .var .m) = pure (.data t' x) ∧
          WriteArg f.typ T.erase f.boxed t' := by
        cases hb : f.boxed
        · refine ⟨ampTy f.typ.needToDereference T.erase, ?_, writeArg_amp hT (hasType_notMap hx)⟩
          cases f.typ.needToDereference
          · exact var_eval _ _ _ _
          · simp only [Bool.true_or, if_true, evalExpr, Env.set_same, orStuck, pure_bind]
            rfl
        · obtain ⟨k, hk⟩ := O.boxed f (List.mem_of_getElem? hf) hb
          rw [hk]
          refine ⟨.box T.erase, ?_, Or.inr rfl⟩
          simp only [Bool.or_true, if_true, evalExpr, Env.set_same, orStuck, pure_bind]
          rfl
      obtain ⟨t', ht', hwa⟩ := hval
      have := try_eval (withTag_eval (tag := f.tag) hw' (write_eval A hw' hT hwt hx ht' hwa))
      simp only [evalArm, this, bind_assoc, pure_bind, hleave _ hm']
    · intro b hb
      obtain ⟨y, q, hbq, hne⟩ := hpre b hb
      rw [hbq, match_variant hW hvi, if_neg hne]

/-- Statements that write members. -/
theorem stmts_eval {H : Host σ} {env : Env} : ∀ {ss : List Stmt} {ps : List (Member × RVal)},
    List.Forall₂ (fun s p => evalStmt W H env s = (do writeMember C wr p.1 p.2; pure env)) ss ps →
    evalStmts W H env ss = (do writeEach (fun (p : Member × RVal) => writeMember C wr p.1 p.2) ps; pure env)
  | [], [], .nil => rfl
  | s :: ss, p :: ps, .cons h1 h2 => by
    rw [evalStmts, h1, bind_assoc, writeEach, bind_assoc]
    simp only [pure_bind, stmts_eval h2]

/-- Running the generated `write_message`. -/
theorem write_body_eval (A : Agree C W sub rd wr) {env : Env} (hw : env .w = some .writer) (hmsg : env .msg = none)
    {idx : MessageIndex} {m : Message} (hm : C.D.getMessage idx = some m) {slots : List RVal}
    (hs : env .self = some (.data (.ref (.adt (messagePath C.D m) false)) (.struct slots)))
    {fs : List (Str × Ty)} (hfs : structFields C.D C.cfg m = some fs) {b : Body} (hb : writeBody C.D C.cfg m = some b)
    (hsrc : ∀ s ∈ sources C.cfg m, SourceIn C s) {Q : Field → RVal → Prop} (hlen : slots.length = (members C.cfg m).length)
    (hty : ∀ p ∈ (members C.cfg m).zip slots, MemberTyped C Q sub p.1 p.2) :
    evalBody W (writerHost (σ := σ) W) env b = (do
      writeEach (fun (p : Member × RVal) => writeMember C wr p.1 p.2) ((members C.cfg m).zip slots); pure (.ok .unit)) := by
  unfold writeBody at hb
  obtain ⟨ts, hts, hb⟩ := Option.bind_eq_some_iff.mp hb
  obtain ⟨os, hos, rfl⟩ := Option.map_eq_some_iff.mp hb
  have hall : (sources C.cfg m).mapM (fun s => match s with
      | .inl f => writeStmt C.D C.cfg f
      | .inr o => oneofWrite C.D C.cfg o) = some (ts ++ os) :=
    mapM_append (by rw [mapM_map]; exact hts) (by rw [mapM_map]; exact hos)
  have hfs' := structFields_sources hfs
  have hmem := members_sources C.cfg m
  have hok : evalExpr W (writerHost (σ := σ) W) env (.call .ok [] (.one .unit)) = pure (.ok .unit) := by
    simp only [evalExpr, evalArgs, evalArg, Exprs.one, pure_bind]
    rfl
  unfold evalBody
  have := stmts_eval (C := C) (wr := wr) (W := W) (H := writerHost (σ := σ) W) (env := env) (ss := ts ++ os)
    (ps := (members C.cfg m).zip slots) ?_
  · rw [this, bind_assoc]
    simp only [pure_bind, hok]
  · rw [hmem]
    refine forall₂_zipWith (g := Prod.mk) ?_ ?_ ?_
    · rw [mapM_length hall, List.length_map]
    · rw [hlen, hmem]
    · intro j t mem v ht hmj hv
      rw [List.getElem?_map] at hmj
      obtain ⟨s, hsj, rfl⟩ := Option.map_eq_some_iff.mp hmj
      obtain ⟨t', ht', hst⟩ := mapM_get hall hsj
      rw [ht] at ht'
      cases ht'
      obtain ⟨ft, hft, hsf⟩ := mapM_get hfs' hsj
      have hin := hsrc s (List.mem_of_getElem? hsj)
      have hmt : MemberTyped C Q sub (memberOf C.cfg s) v := by
        refine hty (memberOf C.cfg s, v) ?_
        rw [hmem]
        refine List.mem_of_getElem? (i := j) ?_
        rw [List.getElem?_zip_eq_some]
        exact ⟨by rw [List.getElem?_map, hsj]; rfl, hv⟩
      cases s with
      | inl f =>
        obtain ⟨FT, hFT, rfl⟩ := Option.map_eq_some_iff.mp hsf
        exact write_field A hw hin hFT hst hmt (self_eval A _ hm hs hfs hft hv)
      | inr o =>
        obtain ⟨l, hl, rfl⟩ := Option.map_eq_some_iff.mp hsf
        exact write_oneof A hw hmsg hin hst hmt (self_eval A _ hm hs hfs hft hv)

end

end QP.Rust
