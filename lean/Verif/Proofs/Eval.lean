import Verif.Spec.Generated
import Verif.Proofs.SM
set_option linter.unusedVariables false
set_option linter.unusedSimpArgs false
/-!
Running the trees of generated code gives what `Verif/Model/Gen.lean` says.
-/

namespace QP.Rust
open QP.Pbrs QP.Gen QP.BytesReader

/-! ## The monad -/

section
variable {σ : Type}

theorem result_unwrap (a : SM σ Val) : (result a >>= unwrap) = a := by
  funext s
  simp only [SM.bind_run, result]
  rcases h : a s with ⟨o, s'⟩
  cases o <;> rfl

theorem result_unwrap_bind {β : Type} (a : SM σ Val) (k : Val → SM σ β) : (result a >>= fun v => unwrap v >>= k) = a >>= k := by
  rw [← bind_assoc, result_unwrap]

theorem result_pure (v : Val) : result (pure v : SM σ Val) = pure (.ok v) := rfl

theorem result_map (W : World) (H : Host σ) (a : SM σ Val) (f : List Val → SM σ Val) :
    (result a >>= fun v => method W H v .map none [] [.fn f] >>= unwrap) = a >>= fun v => f [v] := by
  funext s
  simp only [SM.bind_run, result]
  rcases h : a s with ⟨o, s'⟩
  cases o
  · simp only [method, callMeth, SM.bind_run]
    rcases f [_] s' with ⟨o, s''⟩
    cases o <;> rfl
  all_goals rfl

theorem bind_unit (a : SM σ Unit) : (a >>= fun _ => pure ()) = a := by
  funext s
  simp only [SM.bind_run]
  rcases a s with ⟨o, s'⟩
  cases o <;> rfl

end

/-- What code about `C` may rely on: the types of the program, and that the functions it calls (`rd`, `wr`) are those of the
messages. `sub`: the values on which `wr` is known. -/
structure Agree (C : Ctx) (W : World) (sub : MessageIndex → RVal → Prop) (rd : MessageIndex → Bytes → RM RVal)
    (wr : MessageIndex → MessageWrite RVal) : Prop where
  T : W.T = C.T
  structs : ∀ idx m, C.D.getMessage idx = some m → ∃ fs, structFields C.D C.cfg m = some fs ∧
    W.structs (messagePath C.D m) = some (fs.map fun f => (f.1, f.2.erase)) ∧ (fs.map (·.1)).Nodup
  oneofs : ∀ idx m, C.D.getMessage idx = some m → ∀ o ∈ m.oneofs, ∃ vs, variantTys C.D C.cfg o = some vs ∧
    W.oneofs (oneofPath C.D o) = some (vs.map fun f => (f.1, f.2.erase)) ∧ (vs.map (·.1)).Nodup
  enums : ∀ e en, C.D.getEnum e = some en → W.enums (enumPath C.D en) = some (C.enumNums e)
  default : ∀ idx m, C.D.getMessage idx = some m → W.default (messagePath C.D m) = C.dflt idx
  enumDefault : ∀ e en, C.D.getEnum e = some en → W.default (enumPath C.D en) = .w32 ((C.enumNums e).headD 0)
  first : ∀ e en s, C.D.getEnum e = some en → en.fullyQualified.head? = some s →
    W.const (.adt (enumPath C.D en) false) s = .w32 ((C.enumNums e).headD 0)
  const : ∀ idx m, C.D.getMessage idx = some m → ∀ f ∈ m.fields, ∀ s, f.default = some s → ∀ T, tyOf C.D C.cfg f.typ = some T →
    W.const (match f.typ with | .string_ => .ref .str | .bytes_ => .ref .slice | _ => T.erase) s = C.const f.typ s
  constTyped : ∀ idx m, C.D.getMessage idx = some m → ∀ f ∈ m.fields, ∀ s, f.default = some s → f.typ.asMessage = none →
    f.frequency.generated = .singular → HasType C (fun _ _ => False) f.typ (C.const f.typ s)
  read : ∀ idx m, C.D.getMessage idx = some m → ∀ b, W.read (messagePath C.D m) b = rd idx b
  size : ∀ idx m, C.D.getMessage idx = some m → ∀ v, sub idx v → (W.write (messagePath C.D m)).get_size v = (wr idx).get_size v
  write : ∀ idx m, C.D.getMessage idx = some m → ∀ v, sub idx v → ∀ (σ : Type) [WriterBackend σ],
    (W.write (messagePath C.D m)).write_message v σ = (wr idx).write_message v σ

section
variable {C : Ctx} {W : World} {sub : MessageIndex → RVal → Prop} {rd : MessageIndex → Bytes → RM RVal}
  {wr : MessageIndex → MessageWrite RVal} {σ : Type}

theorem Agree.isStruct (A : Agree C W sub rd wr) {idx : MessageIndex} {m : Message} (h : C.D.getMessage idx = some m) :
    (W.structs (messagePath C.D m)).isSome = true := by
  obtain ⟨fs, _, hs, _⟩ := A.structs idx m h
  rw [hs]; rfl

/-! ## Types -/

theorem tyOf_enum {D : FileDescriptor} {cfg : Config} {e : EnumIndex} {T : Ty} (h : tyOf D cfg (.enum e) = some T) :
    ∃ en, D.getEnum e = some en ∧ T = .adt (enumPath D en) false := by
  obtain ⟨en, hen, rfl⟩ := Option.map_eq_some_iff.mp h
  exact ⟨en, hen, rfl⟩

theorem tyOf_message {D : FileDescriptor} {cfg : Config} {i : MessageIndex} {T : Ty} (h : tyOf D cfg (.message i) = some T) :
    ∃ m l, D.getMessage i = some m ∧ T = .adt (messagePath D m) l := by
  obtain ⟨m, hm, h⟩ := Option.bind_eq_some_iff.mp h
  obtain ⟨l, hl, rfl⟩ := Option.map_eq_some_iff.mp h
  exact ⟨m, l, hm, rfl⟩

theorem tyOf_map {D : FileDescriptor} {cfg : Config} {k v : FieldType} {T : Ty} (h : tyOf D cfg (.map k v) = some T) :
    ∃ tk tv, tyOf D cfg k = some tk ∧ tyOf D cfg v = some tv ∧ T = .kvmap tk tv := by
  obtain ⟨m, hm, h⟩ := Option.bind_eq_some_iff.mp h
  obtain ⟨l, hl, rfl⟩ := Option.map_eq_some_iff.mp h
  exact ⟨m, l, hm, hl, rfl⟩

/-- An argument with a value. -/
theorem evalArg_val {H : Host σ} {env : Env} {s : Expr} {v : Val} (h : evalExpr W H env s = pure v) :
    evalArg W H env s = pure (.val v) := by
  have key : (evalExpr W H env s >>= fun v => pure (Arg.val v)) = (pure (.val v) : SM σ (Arg σ)) := by rw [h]; rfl
  cases s
  case closure ps b => funext st; have := congrFun h st; simp only [evalExpr] at this; cases this
  case fnName f => funext st; have := congrFun h st; simp only [evalExpr] at this; cases this
  case ref e =>
    cases e
    case closure ps b => funext st; have := congrFun h st; simp only [evalExpr] at this; cases this
    all_goals (rw [evalArg]; exact key; all_goals (intros; rename_i h; cases h))
  all_goals (rw [evalArg]; exact key; all_goals (intros; rename_i h; cases h))

/-! ## Sizes -/

theorem meth_len (W : World) (H : Host σ) (t : Ty) (v : RVal) (tf : Option Ty) (inf : List Ty) :
    method W H (.data t v) .len tf inf [] = callAuto W .len (.data t.strip v) := rfl
theorem meth_getSize (W : World) (H : Host σ) (t : Ty) (v : RVal) (tf : Option Ty) (inf : List Ty) :
    method W H (.data t v) .getSize tf inf [] = callAuto W .getSize (.data t.strip v) := rfl
theorem meth_iter (W : World) (H : Host σ) (t : Ty) (v : RVal) (tf : Option Ty) (inf : List Ty) :
    method W H (.data t v) .iter tf inf [] = callAuto W .iter (.data t.strip v) := rfl
theorem meth_isEmpty (W : World) (H : Host σ) (t : Ty) (v : RVal) (tf : Option Ty) (inf : List Ty) :
    method W H (.data t v) .isEmpty tf inf [] = callAuto W .isEmpty (.data t.strip v) := rfl

/-- The size of a value. -/
theorem size_eval (A : Agree C W sub rd wr) (H : Host σ) {env : Env} {t : FieldType} {T : Ty} {s e : Expr} {t' : Ty} {v : RVal}
    (hT : tyOf C.D C.cfg t = some T) (he : sizeTree t s = some e) (hv : HasType C sub t v)
    (hs : evalExpr W H env s = pure (.data t' v)) (hstrip : t'.strip = T.erase) (hp : t.isPrimitive = true → t' = T.erase) :
    evalExpr W H env e = pure (.usize (sizeTyp wr t v)) := by
  cases t
  case message i =>
    cases he
    obtain ⟨m, l, hm, rfl⟩ := tyOf_message hT
    have h1 : callAuto (σ := σ) W .getSize (.data (.adt (messagePath C.D m) false) v) = pure (.usize ((wr i).get_size v)) := by
      show (if _ then _ else _) = _
      rw [if_pos (A.isStruct hm), A.size i m hm v hv]
    simp only [evalExpr, evalArgs, evalArg, Exprs.one, hs, pure_bind, meth_getSize, hstrip, Ty.erase, h1]
    rfl
  case enum e =>
    cases he
    obtain ⟨en, hen, rfl⟩ := tyOf_enum hT
    obtain ⟨x, rfl, _⟩ := hv
    have := hp rfl
    subst this
    have h1 : cast W .u64 (.data (.adt (enumPath C.D en) false) (.w32 x)) = some (.data .u64 (.w64 (x.signExtend 64))) := by
      show (if _ then _ else _) = _
      rw [if_pos (by rw [A.enums e en hen]; rfl)]
    simp only [evalExpr, evalArgs, evalArg, Exprs.one, hs, pure_bind, mkRef, deref, orStuck, Ty.erase, h1]
    rfl
  case map => cases he
  case messageOrEnum => cases he
  case stringCow =>
    cases he; cases hT
    obtain ⟨x, rfl, _⟩ := hv
    have hs' : (Ty.ref t').strip = Ty.cowStr := hstrip
    simp only [evalExpr, evalArgs, evalArg, Exprs.one, hs, pure_bind, mkRef, orStuck, meth_len, hs']
    rfl
  case bytesCow =>
    cases he; cases hT
    obtain ⟨x, rfl⟩ := hv
    have hs' : (Ty.ref t').strip = Ty.cowBytes := hstrip
    simp only [evalExpr, evalArgs, evalArg, Exprs.one, hs, pure_bind, mkRef, orStuck, meth_len, hs']
    rfl
  case string_ =>
    cases he; cases hT
    obtain ⟨x, rfl, _⟩ := hv
    simp only [evalExpr, evalArgs, evalArg, Exprs.one, hs, pure_bind, mkRef, orStuck, meth_len, hstrip]
    rfl
  case bytes_ =>
    cases he; cases hT
    obtain ⟨x, rfl⟩ := hv
    simp only [evalExpr, evalArgs, evalArg, Exprs.one, hs, pure_bind, mkRef, orStuck, meth_len, hstrip]
    rfl
  all_goals
    cases he; cases hT
    obtain ⟨x, rfl⟩ := hv
    first
    | (simp only [evalExpr]; rfl; done)
    | (have := hp rfl
       subst this
       simp only [evalExpr, evalArgs, evalArg, Exprs.one, hs, pure_bind, mkRef, deref, orStuck]
       rfl)

/-! ## Writing values -/

/-- The type of the argument of a `write_*` method: values of scalar types are passed by value, texts and messages by reference. -/
def WriteArg (t : FieldType) (T : Ty) (boxed : Bool) (t' : Ty) : Prop :=
  match t with
  | .stringCow | .string_ | .bytesCow | .bytes_ => ∃ u, t' = .ref u ∧ u.strip = T
  | .message _ => if boxed then t' = .ref T ∨ t' = .box T else t' = .ref T
  | _ => t' = T

theorem meth_write [WriterBackend σ] (W : World) (k : Kind) (v : Val) :
    method W (writerHost (σ := σ) W) .writer (.write k) none [] [.val v] = result (do writeKind W k v; pure .unit) := rfl

theorem write_eval [WriterBackend σ] (A : Agree C W sub rd wr) {env : Env} (hw : env .w = some .writer) {t : FieldType} {T : Ty}
    {s e : Expr} {boxed : Bool} {t' : Ty} {v : RVal} (hT : tyOf C.D C.cfg t = some T) (he : writeTree t s boxed = some e)
    (hv : HasType C sub t v) (hs : evalExpr W (writerHost (σ := σ) W) env s = pure (.data t' v)) (ht : WriteArg t T.erase boxed t') :
    evalExpr W (writerHost (σ := σ) W) env e = result (do writeTyp wr t v; pure .unit) := by
  cases t
  case message i =>
    obtain ⟨m, l, hm, rfl⟩ := tyOf_message hT
    have h1 : writeKind (σ := σ) W .message (.data (.ref (.adt (messagePath C.D m) false)) v) = writeTyp wr (.message i) v := by
      show (if _ then _ else _) = _
      rw [if_pos (A.isStruct hm)]
      show write_message _ _ = write_message _ _
      unfold write_message
      rw [A.size i m hm v hv, A.write i m hm v hv]
    cases boxed
    · cases he
      cases (show t' = .ref _ from ht)
      simp only [evalExpr, evalArgs, evalArg, Exprs.one, hs, evalArg_val hs, pure_bind, hw, orStuck, Ty.erase, meth_write, h1]
    · cases he
      rcases (show t' = .ref _ ∨ t' = .box _ from ht) with rfl | rfl <;>
      simp only [evalExpr, evalArgs, evalArg, Exprs.one, hs, evalArg_val hs, pure_bind, hw, orStuck, Ty.erase, meth_write, h1, deref, mkRef]
  case enum i =>
    cases he
    obtain ⟨en, hen, rfl⟩ := tyOf_enum hT
    obtain ⟨x, rfl, _⟩ := hv
    cases (show t' = _ from ht)
    have h1 : cast W .i32 (.data (.adt (enumPath C.D en) false) (.w32 x)) = some (.data .i32 (.w32 x)) := by
      show (if _ then _ else _) = _
      rw [if_pos (by rw [A.enums i en hen]; rfl)]
    simp only [evalExpr, evalArgs, evalArg, Exprs.one, hs, evalArg_val hs, pure_bind, hw, orStuck, Ty.erase, meth_write, deref, mkRef, h1]
    rfl
  case map => cases he
  case messageOrEnum => cases he
  case stringCow =>
    cases he; cases hT
    obtain ⟨x, rfl, _⟩ := hv
    obtain ⟨u, rfl, hu⟩ := ht
    have h1 : coerce true (.data (.ref u) (.bytes x)) = some x := by simp only [coerce, hu, Ty.erase]
    simp only [evalExpr, evalArgs, evalArg, Exprs.one, hs, evalArg_val hs, pure_bind, hw, orStuck, meth_write, writeKind, h1]
    rfl
  case string_ =>
    cases he; cases hT
    obtain ⟨x, rfl, _⟩ := hv
    obtain ⟨u, rfl, hu⟩ := ht
    have h1 : coerce true (.data (.ref u) (.bytes x)) = some x := by simp only [coerce, hu, Ty.erase]
    simp only [evalExpr, evalArgs, evalArg, Exprs.one, hs, evalArg_val hs, pure_bind, hw, orStuck, meth_write, writeKind, h1]
    rfl
  case bytesCow =>
    cases he; cases hT
    obtain ⟨x, rfl⟩ := hv
    obtain ⟨u, rfl, hu⟩ := ht
    have h1 : coerce false (.data (.ref u) (.bytes x)) = some x := by simp only [coerce, hu, Ty.erase]
    simp only [evalExpr, evalArgs, evalArg, Exprs.one, hs, evalArg_val hs, pure_bind, hw, orStuck, meth_write, writeKind, h1]
    rfl
  case bytes_ =>
    cases he; cases hT
    obtain ⟨x, rfl⟩ := hv
    obtain ⟨u, rfl, hu⟩ := ht
    have h1 : coerce false (.data (.ref u) (.bytes x)) = some x := by simp only [coerce, hu, Ty.erase]
    simp only [evalExpr, evalArgs, evalArg, Exprs.one, hs, evalArg_val hs, pure_bind, hw, orStuck, meth_write, writeKind, h1]
    rfl
  all_goals
    cases he; cases hT
    obtain ⟨x, rfl⟩ := hv
    cases (show t' = _ from ht)
    simp only [evalExpr, evalArgs, evalArg, Exprs.one, hs, evalArg_val hs, pure_bind, hw, orStuck, Ty.erase, meth_write, deref, mkRef]
    rfl

/-! ## Reading values -/

theorem meth_read (W : World) (k : Kind) (tf : Option Ty) (inf : List Ty) (b : Bytes) :
    method W (readerHost W) .reader (.read k) tf inf [.val (.input b)] = result (readKind W k tf inf b) := rfl

theorem read_eval (A : Agree C W sub rd wr) {env : Env} {b : Bytes} (hr : env .r = some .reader) (hb : env .bytes = some (.input b))
    {t : FieldType} {T : Ty} {e : Expr} (hT : tyOf C.D C.cfg t = some T) (he : readTree C.D t = some e) :
    evalExpr W (readerHost W) env e = (readTyp C rd t b >>= fun v => pure (.data T.erase v)) := by
  cases t
  case message i =>
    obtain ⟨m, l, hm, rfl⟩ := tyOf_message hT
    simp only [readTree, hm, Option.map_some] at he
    cases he
    have h1 : readKind W .message (some (.adt (messagePath C.D m) false)) [] b =
        (readTyp C rd (.message i) b >>= fun v => pure (.data (.adt (messagePath C.D m) false) v)) := by
      show (if _ then _ else _) = _
      rw [if_pos (A.isStruct hm), A.T, A.read i m hm]
      rfl
    simp only [readCall, evalExpr, evalArgs, evalArg, Exprs.one, pure_bind, hr, hb, orStuck, Ty.erase, meth_read, h1, result_unwrap]
  case enum i =>
    obtain ⟨en, hen, rfl⟩ := tyOf_enum hT
    simp only [readTree, hen, Option.map_some] at he
    cases he
    have h1 : readKind W .enum none [.adt (enumPath C.D en) false] b =
        (readTyp C rd (.enum i) b >>= fun v => pure (.data (.adt (enumPath C.D en) false) v)) := by
      simp only [readKind, A.enums i en hen, readTyp, bind_assoc, pure_bind]
    simp only [readCall, evalExpr, evalArgs, evalArg, Exprs.one, pure_bind, hr, hb, orStuck, Ty.erase, meth_read, h1, result_unwrap]
  case map => cases he
  case messageOrEnum => cases he
  case stringCow =>
    cases he; cases hT
    have := result_map W (readerHost W) (readKind W .string none [] b) (callFn W .cowBorrowed [])
    simp only [readCall, evalExpr, evalArgs, evalArg, Exprs.one, pure_bind, hr, hb, orStuck, meth_read, bind_assoc]
    rw [this]
    simp only [readKind, readTyp, bind_assoc, pure_bind, A.T]
    rfl
  case bytesCow =>
    cases he; cases hT
    have := result_map W (readerHost W) (readKind W .bytes none [] b) (callFn W .cowBorrowed [])
    simp only [readCall, evalExpr, evalArgs, evalArg, Exprs.one, pure_bind, hr, hb, orStuck, meth_read, bind_assoc]
    rw [this]
    simp only [readKind, readTyp, bind_assoc, pure_bind, A.T]
    rfl
  case string_ =>
    cases he; cases hT
    simp only [readCall, evalExpr, evalArgs, evalArg, Exprs.one, pure_bind, hr, hb, orStuck, meth_read, bind_assoc, result_unwrap_bind]
    simp only [readKind, readTyp, bind_assoc, pure_bind, A.T]
    rfl
  case bytes_ =>
    cases he; cases hT
    simp only [readCall, evalExpr, evalArgs, evalArg, Exprs.one, pure_bind, hr, hb, orStuck, meth_read, bind_assoc, result_unwrap_bind]
    simp only [readKind, readTyp, bind_assoc, pure_bind, A.T]
    rfl
  all_goals
    cases he; cases hT
    simp only [readCall, evalExpr, evalArgs, evalArg, Exprs.one, pure_bind, hr, hb, orStuck, meth_read, result_unwrap]
    simp only [readKind, readTyp, bind_assoc, pure_bind, A.T]
    rfl

end

end QP.Rust
