import Verif.Proofs.EvalWrite
set_option linter.unusedVariables false
set_option linter.unusedSimpArgs false
/-!
Running the generated `from_reader`.
-/

namespace QP.Rust
open QP.Pbrs QP.Gen QP.BytesReader

theorem Env.set_set (env : Env) (x : Var) (v w : Val) : (env.set x v).set x w = env.set x w := by
  funext y
  unfold Env.set
  split <;> rfl

theorem forall₂_get {α β : Type} {R : α → β → Prop} : ∀ {l : List α} {l' : List β}, l.length = l'.length →
    (∀ (i : Nat) (a : α) (b : β), l[i]? = some a → l'[i]? = some b → R a b) → List.Forall₂ R l l'
  | [], [], _, _ => .nil
  | a :: l, b :: l', h, hr => .cons (hr 0 a b rfl rfl)
      (forall₂_get (by simpa using h) fun i a b ha hb => hr (i + 1) a b (by simpa using ha) (by simpa using hb))
  | [], b :: l', h, _ => by simp at h
  | a :: l, [], h, _ => by simp at h

theorem forall₂_append {α β : Type} {R : α → β → Prop} : ∀ {l1 l2 : List α} {l1' l2' : List β}, List.Forall₂ R l1 l1' → List.Forall₂ R l2 l2' →
    List.Forall₂ R (l1 ++ l2) (l1' ++ l2')
  | [], _, [], _, .nil, h => h
  | _ :: _, _, _ :: _, _, .cons h1 h2, h => .cons h1 (forall₂_append h2 h)

theorem forall₂_flatMap {α β γ : Type} {R : α → β → Prop} {g : γ × Nat → List β} : ∀ {tss : List (List α)} {ms : List γ} (k : Nat),
    tss.length = ms.length →
    (∀ (j : Nat) (ts : List α) (m : γ), tss[j]? = some ts → ms[j]? = some m → List.Forall₂ R ts (g (m, k + j))) →
    List.Forall₂ R tss.flatten ((ms.zipIdx k).flatMap g)
  | [], [], _, _, _ => .nil
  | ts :: tss, m :: ms, k, h, hr => by
    rw [List.flatten_cons, List.zipIdx_cons, List.flatMap_cons]
    refine forall₂_append (hr 0 ts m rfl rfl) (forall₂_flatMap (k + 1) (by simpa using h) ?_)
    intro j ts' m' ht hm
    have := hr (j + 1) ts' m' (by simpa using ht) (by simpa using hm)
    rwa [show k + (j + 1) = k + 1 + j by omega] at this
  | [], m :: ms, _, h, _ => by simp at h
  | ts :: tss, [], _, h, _ => by simp at h

theorem List.flatten_map_singleton {α : Type} : ∀ l : List α, (l.map fun t => [t]).flatten = l
  | [] => rfl
  | t :: l => by rw [List.map_cons, List.flatten_cons, List.flatten_map_singleton]; rfl

section
variable {C : Ctx} {W : World} {sub : MessageIndex → RVal → Prop} {rd : MessageIndex → Bytes → RM RVal}
  {wr : MessageIndex → MessageWrite RVal}

/-- `T::default()` of the types of keys and values. -/
theorem tyDefault_eval (A : Agree C W sub rd wr) {t : FieldType} {T : Ty} (hT : tyOf C.D C.cfg t = some T) :
    tyDefault W T.erase = typDefault C t := by
  cases t
  case message i =>
    obtain ⟨m, l, hm, rfl⟩ := tyOf_message hT
    exact A.default i m hm
  case enum i =>
    obtain ⟨en, hen, rfl⟩ := tyOf_enum hT
    exact A.enumDefault i en hen
  case map k v => obtain ⟨a, b, _, _, rfl⟩ := tyOf_map hT; rfl
  case messageOrEnum => cases hT
  all_goals (cases hT; rfl)

/-- Reading code as an argument. -/
theorem readTree_arg {σ : Type} {D : FileDescriptor} {t : FieldType} {e : Expr} (h : readTree D t = some e) (H : Host σ) (env : Env) :
    evalArg W H env e = (evalExpr W H env e >>= fun v => pure (.val v)) := by
  cases t
  case message i => obtain ⟨m, _, rfl⟩ := Option.map_eq_some_iff.mp h; simp only [evalArg]
  case enum i => obtain ⟨m, _, rfl⟩ := Option.map_eq_some_iff.mp h; simp only [evalArg]
  case map => cases h
  case messageOrEnum => cases h
  all_goals (cases h; simp only [evalArg])

theorem bytes_eval {σ : Type} {H : Host σ} {env : Env} {x : Var} {v : Val} (h : env x = some v) : evalExpr W H env (.var x) = pure v := by
  rw [evalExpr, h]; rfl

/-- A closure that reads. -/
theorem readWith_eval (A : Agree C W sub rd wr) {env : Env} {b : Bytes} (hr : env .r = some .reader) (hb : env .bytes = some (.input b))
    {t : FieldType} {T : Ty} {e : Expr} (hT : tyOf C.D C.cfg t = some T) (he : readTree C.D t = some e) :
    readWith (closure W env [.var .r, .var .bytes] fun env => evalExpr W (readerHost W) env (.call .ok [] (.one e))) b T.erase =
      readTyp C rd t b := by
  have h1 : ∀ k : Env → RM Val, closure W env [.var .r, .var .bytes] k [.reader, .input b] =
      k ((env.set .r .reader).set .bytes (.input b)) := fun _ => rfl
  have h2 : (env.set .r .reader).set .bytes (.input b) = env := by rw [Env.set_self hr, Env.set_self hb]
  have h3 : ∀ v, callFn (σ := BytesReader) W .ok [] [v] = pure (.ok v) := fun _ => rfl
  have h4 : ∀ v, unwrap (σ := BytesReader) (.ok v) = pure v := fun _ => rfl
  have h5 : ∀ v, expect (σ := BytesReader) T.erase (.data T.erase v) = pure v := by intro v; simp only [expect, if_true]
  unfold readWith
  rw [h1, h2]
  simp only [evalExpr, evalArgs, Exprs.one, readTree_arg he, read_eval A hr hb hT he, bind_assoc, pure_bind, vals, Option.map_some,
    orStuck, h3, h4, h5, bind_pure]

/-- The members that code adds to have the right shape. -/
structure SlotsOk (cfg : Config) (m : Message) (slots : List RVal) : Prop where
  length : slots.length = (members cfg m).length
  vec : ∀ (j : Nat) (f : Field), (members cfg m)[j]? = some (.field f) → f.boxed = false → f.frequency.generated = .arrayLike →
    f.isPacked = false → ∃ l, slots[j]? = some (.vec l)
  map : ∀ (j : Nat) (f : Field), (members cfg m)[j]? = some (.field f) → f.boxed = false → f.frequency.generated = .map →
    ∃ l, slots[j]? = some (.map l)

/-- The member of an arm. -/
def Place (cfg : Config) (m : Message) (a : Arm) : Prop :=
  (a.choice = none ∧ (members cfg m)[a.slot]? = some (.field a.field)) ∨
    (a.choice.isSome = true ∧ ∃ fs, (members cfg m)[a.slot]? = some (.oneof fs))

/-- An arm keeps shapes. -/
theorem SlotsOk.step {cfg : Config} {m : Message} {slots : List RVal} (h : SlotsOk cfg m slots) {a : Arm} (hp : Place cfg m a) {v : RVal}
    (hv : a.field.boxed = false → a.choice = none → a.field.frequency.generated = .map → ∃ k x, v = .map [(k, x)]) :
    SlotsOk cfg m (setSlot a.slot (fun old => armApply a old v) slots) := by
  refine ⟨by rw [setSlot, List.length_modify]; exact h.length, ?_, ?_⟩
  · intro j f hj hb hg hpk
    obtain ⟨l, hl⟩ := h.vec j f hj hb hg hpk
    rw [setSlot, List.getElem?_modify, hl]
    by_cases ha : a.slot = j
    · rcases hp with ⟨hc, hm⟩ | ⟨_, fs, hm⟩
      · rw [ha, hj] at hm
        cases hm
        refine ⟨l ++ [v], ?_⟩
        simp only [ha, if_true, Option.map_some, armApply, hc, hb, hg, hpk]
        rfl
      · rw [ha, hj] at hm; cases hm
    · exact ⟨l, by simp [ha]⟩
  · intro j f hj hb hg
    obtain ⟨l, hl⟩ := h.map j f hj hb hg
    rw [setSlot, List.getElem?_modify, hl]
    by_cases ha : a.slot = j
    · rcases hp with ⟨hc, hm⟩ | ⟨_, fs, hm⟩
      · rw [ha, hj] at hm
        cases hm
        obtain ⟨k, x, rfl⟩ := hv hb hc hg
        refine ⟨insertKV k x l, ?_⟩
        simp only [ha, if_true, Option.map_some, armApply, hc, hb, hg]
        rfl
      · rw [ha, hj] at hm; cases hm
    · exact ⟨l, by simp [ha]⟩

/-- Locals of the loop. -/
def loopEnv (base : Env) (p : Path) (slots : List RVal) : Env := base.set .msg (.data (.adt p false) (.struct slots))

theorem loop_r {base : Env} {p : Path} {slots : List RVal} {x : Var} {v : Val} (hx : x ≠ .msg) (h : base x = some v) :
    loopEnv base p slots x = some v := by rw [loopEnv, Env.set_other _ _ hx]; exact h

theorem update_eval {base : Env} {p : Path} {slots : List RVal} {f : Str} {j : Nat} {t : Ty} {g : Ty → RVal → Option RVal}
    {k : RVal → RVal} (hf : W.field p f = some (j, t)) {old : RVal} (hold : slots[j]? = some old) (hg : g t old = some (k old)) :
    updateField (σ := BytesReader) W (loopEnv base p slots) .msg f g = pure (loopEnv base p (setSlot j k slots)) := by
  unfold updateField
  have h1 : loopEnv base p slots .msg = some (.data (.adt p false) (.struct slots)) := Env.set_same _ _ _
  have h2 : slots.set j (k old) = slots.modify j k := by
    rw [List.modify_eq_set_getElem?, hold]; rfl
  rw [h1]
  simp only [hf, hold, hg, orStuck, pure_bind, h2]
  rw [loopEnv, Env.set_set]
  rfl

/-- What the code of an arm does. -/
def ArmIs (C : Ctx) (W : World) (rd : MessageIndex → Bytes → RM RVal) (m : Message) (base : Env) (b : Bytes) (t : Pat × ArmBody)
    (a : Arm) : Prop :=
  t.1 = .ok (.num a.field.tag.toNat) ∧ Place C.cfg m a ∧ ∀ slots, SlotsOk C.cfg m slots →
    evalArm W (readerHost W) (loopEnv base (messagePath C.D m) slots) t.2 =
      (armRead C rd W.fuel a b >>= fun v => pure (loopEnv base (messagePath C.D m) (setSlot a.slot (fun old => armApply a old v) slots)))

/-- The arm of a field. -/
theorem field_arm (A : Agree C W sub rd wr) {base : Env} {b : Bytes} (hr : base .r = some .reader) (hb : base .bytes = some (.input b))
    {idx : MessageIndex} {m : Message} (hm : C.D.getMessage idx = some m) {fs : List (Str × Ty)}
    (hfs : structFields C.D C.cfg m = some fs) {j : Nat} {f : Field} (F : FieldIn C f) (hmj : (members C.cfg m)[j]? = some (.field f))
    {FT : Ty} (hFT : fieldTy C.D C.cfg f = some FT) (hj : fs[j]? = some (f.name, FT)) {t : Pat × ArmBody}
    (ht : fieldArm C.D C.cfg f = some t) : ArmIs C W rd m base b t ⟨j, f, none⟩ := by
  obtain ⟨body, hbody, rfl⟩ := Option.map_eq_some_iff.mp ht
  refine ⟨rfl, .inl ⟨rfl, hmj⟩, ?_⟩
  intro slots S
  have hlook := field_lookup A hm hfs hj
  have hlt : j < slots.length := by rw [S.length]; exact (List.getElem?_eq_some_iff.mp hmj).1
  obtain ⟨old, hold⟩ : ∃ old, slots[j]? = some old := ⟨_, List.getElem?_eq_getElem hlt⟩
  have hr' : loopEnv base (messagePath C.D m) slots .r = some .reader := loop_r (by decide) hr
  have hb' : loopEnv base (messagePath C.D m) slots .bytes = some (.input b) := loop_r (by decide) hb
  obtain ⟨T, hT, rfl⟩ := Option.map_eq_some_iff.mp hFT
  unfold matchTree at hbody
  unfold armRead
  simp only [Option.isSome_none, Bool.false_or]
  cases hbx : f.boxed <;> simp only [hbx, Bool.false_eq_true, if_false, if_true] at hbody hlook ⊢
  · cases hg : f.frequency.generated <;> simp only [hg] at hbody hlook ⊢
    · -- singular
      obtain ⟨e, he, rfl⟩ := Option.map_eq_some_iff.mp hbody
      have hev := read_eval A hr' hb' hT he
      cases ho : f.frequency.isOptional <;> simp only [ho, Bool.false_eq_true, if_false, if_true] at hlook ⊢
      · simp only [evalArm, evalSimple, hev, bind_assoc, pure_bind]
        congr 1
        funext v
        refine update_eval (k := fun old => armApply ⟨j, f, none⟩ old v) hlook hold ?_
        simp only [if_true, armApply, hbx, hg, ho, Bool.false_eq_true, if_false]
      · have hsome : ∀ v, callFn (σ := BytesReader) W .some [] [.data T.erase v] = pure (.data (.option T.erase) (.some v)) := fun _ => rfl
        simp only [evalArm, evalSimple, evalExpr, evalArgs, Exprs.one, readTree_arg he, hev, bind_assoc, pure_bind, vals, Option.map_some,
          orStuck, hsome]
        congr 1
        funext v
        refine update_eval (k := fun old => armApply ⟨j, f, none⟩ old v) hlook hold ?_
        simp only [Ty.erase, if_true, armApply, hbx, hg, ho, Bool.false_eq_true, if_false]
    · -- repeated
      obtain ⟨T', hT', hbody⟩ := Option.bind_eq_some_iff.mp hbody
      cases hT.symm.trans hT'
      obtain ⟨e, he, rfl⟩ := Option.map_eq_some_iff.mp hbody
      cases hp : f.isPacked <;> simp only [hp, Bool.false_eq_true, if_false, if_true, Bool.false_and, Bool.true_and] at hlook ⊢
      · obtain ⟨l, hl⟩ := S.vec j f hmj hbx hg hp
        have hev := read_eval A hr' hb' hT he
        simp only [evalArm, evalSimple, hev, bind_assoc, pure_bind]
        congr 1
        funext v
        refine update_eval (k := fun old => armApply ⟨j, f, none⟩ old v) hlook hl ?_
        simp only [Ty.erase, if_true, armApply, hbx, hg, hp, Bool.false_eq_true, if_false]
      · cases hfx : f.typ.isFixedSize
        · simp only [hfx, Bool.false_and, Bool.false_eq_true, if_false] at hlook ⊢
          have hmeth : ∀ g : List Val → RM Val, method W (readerHost W) .reader .readPacked none [T.erase] [.val (.input b), .fn g] =
              result (do let l ← read_packed W.T W.fuel b (readWith g b T.erase); pure (.data (.vec T.erase) (.vec l))) := fun _ => rfl
          have hrw := readWith_eval A hr' hb' hT he
          simp only [evalArm, evalSimple]
          rw [evalExpr, evalExpr, evalExpr, hr', evalArgs, evalArg_val (bytes_eval hb'), Exprs.one, evalArgs, readClosure, evalArg, evalArgs]
          simp only [orStuck, pure_bind, hmeth, hrw, result_unwrap_bind, bind_assoc, A.T]
          congr 1
          funext l
          refine update_eval (k := fun old => armApply ⟨j, f, none⟩ old (.vec l)) hlook hold ?_
          simp only [Ty.erase, if_true, armApply, hbx, hg, hp, Bool.false_eq_true, if_false]
        · have hpf : isPackedFixed f = true := by unfold isPackedFixed; rw [hp, hfx]; rfl
          have hcow := F.cow hpf
          obtain ⟨h1, h2⟩ := tyOf_size hT hfx
          simp only [hfx, hcow, Bool.not_false, Bool.and_self, if_true] at hlook ⊢
          simp only [evalArm, evalSimple]
          rw [evalExpr, evalExpr, evalExpr, hr', Exprs.one, evalArgs, evalArg_val (bytes_eval hb'), evalArgs]
          rw [h1]
          have hE : (Ty.packed T).erase = .packed T := by show Ty.packed T.erase = _; rw [h1]
          rw [hE] at hlook
          by_cases hw : f.typ.wireTypeNumNonPacked = 1
          · simp only [hw, if_true] at h2 ⊢
            have hmeth : method W (readerHost W) .reader .readPackedFixed none [T] [.val (.input b)] =
              result (do let p ← read_packed_fixed W.T (MemTy.int W.T 8) b; pure (.data (.packed T) (.pf64 p))) := by
              show (match T.size with
                | some 8 => result do let p ← read_packed_fixed W.T (MemTy.int W.T 8) b; pure (.data (.packed T) (.pf64 p))
                | some _ => result do let p ← read_packed_fixed W.T (MemTy.int W.T 4) b; pure (.data (.packed T) (.pf32 p))
                | none => stuck) = _
              simp only [h2]
            simp only [orStuck, pure_bind, hmeth, result_unwrap_bind, bind_assoc, A.T]
            congr 1
            funext p
            refine update_eval (k := fun old => armApply ⟨j, f, none⟩ old (.pf64 p)) hlook hold ?_
            simp only [if_true, armApply, hbx, hg, hp, Bool.false_eq_true, if_false]
          · simp only [hw, if_false] at h2 ⊢
            have hmeth : method W (readerHost W) .reader .readPackedFixed none [T] [.val (.input b)] =
              result (do let p ← read_packed_fixed W.T (MemTy.int W.T 4) b; pure (.data (.packed T) (.pf32 p))) := by
              show (match T.size with
                | some 8 => result do let p ← read_packed_fixed W.T (MemTy.int W.T 8) b; pure (.data (.packed T) (.pf64 p))
                | some _ => result do let p ← read_packed_fixed W.T (MemTy.int W.T 4) b; pure (.data (.packed T) (.pf32 p))
                | none => stuck) = _
              simp only [h2]
            simp only [orStuck, pure_bind, hmeth, result_unwrap_bind, bind_assoc, A.T]
            congr 1
            funext p
            refine update_eval (k := fun old => armApply ⟨j, f, none⟩ old (.pf32 p)) hlook hold ?_
            simp only [if_true, armApply, hbx, hg, hp, Bool.false_eq_true, if_false]
    · -- map
      obtain ⟨l, hl⟩ := S.map j f hmj hbx hg
      cases hty : f.typ <;> simp only [hty] at hbody hT ⊢ <;> (try (cases hbody; done))
      rename_i kt vt
      obtain ⟨tk, htk, hbody⟩ := Option.bind_eq_some_iff.mp hbody
      obtain ⟨tv, htv, hbody⟩ := Option.bind_eq_some_iff.mp hbody
      obtain ⟨ke, hke, hbody⟩ := Option.bind_eq_some_iff.mp hbody
      obtain ⟨ve, hve, rfl⟩ := Option.map_eq_some_iff.mp hbody
      obtain ⟨tk', tv', htk', htv', rfl⟩ := tyOf_map hT
      cases htk.symm.trans htk'
      cases htv.symm.trans htv'
      have hmeth : ∀ g h : List Val → RM Val, method W (readerHost W) .reader .readMap none [tk.erase, tv.erase]
          [.val (.input b), .fn g, .fn h] =
          result (do
            let e ← read_map W.T W.fuel b (tyDefault W tk.erase) (tyDefault W tv.erase) (readWith g b tk.erase) (readWith h b tv.erase)
            pure (.pair (.data tk.erase e.1) (.data tv.erase e.2))) := fun _ _ => rfl
      have hrk := readWith_eval A hr' hb' htk hke
      have hrv := readWith_eval A hr' hb' htv hve
      simp only [Exprs.one] at hrk hrv
      simp only [evalArm]
      rw [evalExpr, evalExpr, evalExpr, hr', evalArgs, evalArg_val (bytes_eval hb')]
      simp only [evalArgs, evalArg, Exprs.one, readClosure]
      simp only [orStuck, pure_bind, hmeth, hrk, hrv, tyDefault_eval A htk, tyDefault_eval A htv, result_unwrap_bind, bind_assoc, A.T]
      congr 1
      funext kv
      refine update_eval (k := fun old => armApply ⟨j, f, none⟩ old (.map [kv])) hlook hl ?_
      simp only [Ty.erase, and_self, if_true, armApply, hbx, hg, Bool.false_eq_true, if_false]
  · -- boxed
    obtain ⟨i, hi⟩ := F.boxed hbx
    rw [hi] at hbody
    simp only at hbody
    split at hbody
    · cases hbody
    rw [← hi] at hbody
    obtain ⟨e, he, rfl⟩ := Option.map_eq_some_iff.mp hbody
    have hev := read_eval A hr' hb' hT he
    have hsome : ∀ v, callFn (σ := BytesReader) W .some [] [.data (.box T.erase) v] = pure (.data (.option (.box T.erase)) (.some v)) :=
      fun _ => rfl
    have hbox : ∀ v, callFn (σ := BytesReader) W .boxNew [] [.data T.erase v] = pure (.data (.box T.erase) v) := fun _ => rfl
    simp only [evalArm, evalSimple, evalExpr, evalArgs, evalArg, Exprs.one, readTree_arg he, hev, bind_assoc, pure_bind, vals,
      Option.map_some, orStuck, hbox, hsome]
    congr 1
    funext v
    refine update_eval (k := fun old => armApply ⟨j, f, none⟩ old v) hlook hold ?_
    simp only [Ty.erase, if_true, armApply, hbx]

/-- The arm of a variant of a oneof. -/
theorem oneof_arm (A : Agree C W sub rd wr) {base : Env} {b : Bytes} (hr : base .r = some .reader) (hb : base .bytes = some (.input b))
    {idx : MessageIndex} {m : Message} (hm : C.D.getMessage idx = some m) {fs : List (Str × Ty)}
    (hfs : structFields C.D C.cfg m = some fs) {j : Nat} {o : OneOf} (O : OneofIn C o)
    (hmj : (members C.cfg m)[j]? = some (.oneof (o.shown C.cfg)))
    {l : Bool} (hj : fs[j]? = some (o.name, .adt (oneofPath C.D o) l)) {i : Nat} {f : Field} (hi : (o.shown C.cfg)[i]? = some f)
    {t : Pat × ArmBody} (ht : oneofMatchTree C.D o f = some t) : ArmIs C W rd m base b t ⟨j, f, some i⟩ := by
  obtain ⟨vs, hW, hns, hn, hty⟩ := oneof_variants A O
  obtain ⟨T, hT, hvi⟩ := hty i f hi
  have hfi : vs.findIdx? (fun g => g.1 == f.name) = some i := findIdx_nodup (by rw [hns]; exact hn) hvi
  have hlook := field_lookup A hm hfs hj
  have hvar : ∀ (u : Ty) (v : RVal), u = (if f.boxed then .box T.erase else T.erase) →
      callFn (σ := BytesReader) W (.variant (oneofPath C.D o) f.name) [] [.data u v] =
        pure (.data (.adt (oneofPath C.D o) false) (.choice i v)) := by
    rintro u v rfl
    show ((match W.oneofs (oneofPath C.D o) with
      | some (vs : List (Str × Ty)) =>
        match vs.findIdx? (fun (g : Str × Ty) => g.1 == f.name) with
        | some i => if (vs[i]?).map (fun (g : Str × Ty) => g.2) = some (if f.boxed then Ty.box T.erase else T.erase) then
            pure (.data (.adt (oneofPath C.D o) false) (.choice i v)) else stuck
        | none => stuck
      | none => stuck) : RM Val) = _
    simp only [hW, hfi, hvi, Option.map_some, if_true]
  unfold oneofMatchTree at ht
  cases hbx : f.boxed <;> simp only [hbx, Bool.false_eq_true, if_false, if_true] at ht hvar
  · obtain ⟨e, he, rfl⟩ := Option.map_eq_some_iff.mp ht
    refine ⟨rfl, .inr ⟨rfl, _, hmj⟩, ?_⟩
    intro slots S
    have hlt : j < slots.length := by rw [S.length]; exact (List.getElem?_eq_some_iff.mp hmj).1
    obtain ⟨old, hold⟩ : ∃ old, slots[j]? = some old := ⟨_, List.getElem?_eq_getElem hlt⟩
    have hr' : loopEnv base (messagePath C.D m) slots .r = some .reader := loop_r (by decide) hr
    have hb' : loopEnv base (messagePath C.D m) slots .bytes = some (.input b) := loop_r (by decide) hb
    have hev := read_eval A hr' hb' hT he
    unfold armRead
    simp only [evalArm, evalSimple, evalExpr, evalArgs, Exprs.one, readTree_arg he, hev, bind_assoc, pure_bind, vals, Option.map_some,
      orStuck, hvar _ _ rfl, Option.isSome_some, Bool.true_or, if_true]
    congr 1
    funext v
    refine update_eval (k := fun old => armApply ⟨j, f, some i⟩ old v) hlook hold ?_
    simp only [Ty.erase, if_true, armApply]
  · obtain ⟨k, hk⟩ := O.boxed f (List.mem_of_getElem? hi) hbx
    rw [hk] at ht
    simp only at ht
    rw [← hk] at ht
    obtain ⟨e, he, rfl⟩ := Option.map_eq_some_iff.mp ht
    refine ⟨rfl, .inr ⟨rfl, _, hmj⟩, ?_⟩
    intro slots S
    have hlt : j < slots.length := by rw [S.length]; exact (List.getElem?_eq_some_iff.mp hmj).1
    obtain ⟨old, hold⟩ : ∃ old, slots[j]? = some old := ⟨_, List.getElem?_eq_getElem hlt⟩
    have hr' : loopEnv base (messagePath C.D m) slots .r = some .reader := loop_r (by decide) hr
    have hb' : loopEnv base (messagePath C.D m) slots .bytes = some (.input b) := loop_r (by decide) hb
    have hev := read_eval A hr' hb' hT he
    have hbox : ∀ v, callFn (σ := BytesReader) W .boxNew [] [.data T.erase v] = pure (.data (.box T.erase) v) := fun _ => rfl
    unfold armRead
    simp only [evalArm, evalSimple, evalExpr, evalArgs, evalArg, Exprs.one, readTree_arg he, hev, bind_assoc, pure_bind, vals,
      Option.map_some, orStuck, hbox, hvar _ _ rfl, Option.isSome_some, Bool.true_or, if_true]
    congr 1
    funext v
    refine update_eval (k := fun old => armApply ⟨j, f, some i⟩ old v) hlook hold ?_
    simp only [Ty.erase, if_true, armApply]

/-- The arms of a message. -/
theorem arms_are (A : Agree C W sub rd wr) {base : Env} {b : Bytes} (hr : base .r = some .reader) (hb : base .bytes = some (.input b))
    {idx : MessageIndex} {m : Message} (hm : C.D.getMessage idx = some m) {fs : List (Str × Ty)}
    (hfs : structFields C.D C.cfg m = some fs) (hsrc : ∀ s ∈ sources C.cfg m, SourceIn C s) {ts : List (Pat × ArmBody)}
    {os : List (List (Pat × ArmBody))} (hts : (shownFields C.cfg m).mapM (fieldArm C.D C.cfg) = some ts)
    (hos : (m.oneofs.mapM fun (o : OneOf) => (o.shown C.cfg).mapM (oneofMatchTree C.D o)) = some os) :
    List.Forall₂ (ArmIs C W rd m base b) (ts ++ os.flatten) (arms C.cfg m) := by
  have hall : (sources C.cfg m).mapM (fun s => match s with
      | .inl f => (fieldArm C.D C.cfg f).map fun t => [t]
      | .inr o => (o.shown C.cfg).mapM (oneofMatchTree C.D o)) = some (ts.map (fun t => [t]) ++ os) :=
    mapM_append (by rw [mapM_map]; exact mapM_map_some hts) (by rw [mapM_map]; exact hos)
  have hfs' := structFields_sources hfs
  have hmem := members_sources C.cfg m
  have hflat : (ts.map (fun t => [t]) ++ os).flatten = ts ++ os.flatten := by
    rw [List.flatten_append]
    rw [List.flatten_map_singleton]
  rw [← hflat]
  unfold arms
  refine forall₂_flatMap 0 ?_ ?_
  · rw [mapM_length hall, hmem, List.length_map]
  · intro j t mem ht hmj
    have hmj' := hmj
    rw [hmem, List.getElem?_map] at hmj
    obtain ⟨s, hsj, rfl⟩ := Option.map_eq_some_iff.mp hmj
    obtain ⟨t', ht', hst⟩ := mapM_get hall hsj
    rw [ht] at ht'
    cases ht'
    obtain ⟨ft, hft, hsf⟩ := mapM_get hfs' hsj
    have hin := hsrc s (List.mem_of_getElem? hsj)
    rw [Nat.zero_add]
    cases s with
    | inl f =>
      obtain ⟨FT, hFT, rfl⟩ := Option.map_eq_some_iff.mp hsf
      obtain ⟨a, ha, rfl⟩ := Option.map_eq_some_iff.mp hst
      exact .cons (field_arm A hr hb hm hfs hin hmj' hFT hft ha) .nil
    | inr o =>
      obtain ⟨l, hl, rfl⟩ := Option.map_eq_some_iff.mp hsf
      show List.Forall₂ _ t ((o.shown C.cfg).zipIdx.map fun x => (⟨j, x.1, some x.2⟩ : Arm))
      refine forall₂_get ?_ ?_
      · rw [mapM_length hst, List.length_map, List.length_zipIdx]
      · intro i tr a htr ha
        obtain ⟨f, hf, hfa⟩ := mapM_get' hst htr
        rw [List.getElem?_map, List.getElem?_zipIdx, hf] at ha
        cases ha
        rw [Nat.zero_add]
        exact oneof_arm A hr hb hm hfs hin hmj' hft hf hfa

/-- The first arm with the tag. -/
theorem arms_eval {base : Env} {b : Bytes} {m : Message} {t : BitVec 32} {slots : List RVal} (S : SlotsOk C.cfg m slots)
    {rest : List (Pat × ArmBody)} : ∀ {ts : List (Pat × ArmBody)} {as : List Arm}, List.Forall₂ (ArmIs C W rd m base b) ts as →
    evalStmtArms W (readerHost W) (loopEnv base (messagePath C.D m) slots) (.ok (.data .u32 (.w32 t))) (ts ++ rest) =
      match as.find? (fun a => a.field.tag == t) with
      | some a => (armRead C rd W.fuel a b >>= fun v =>
          pure (loopEnv base (messagePath C.D m) (setSlot a.slot (fun old => armApply a old v) slots)))
      | none => evalStmtArms W (readerHost W) (loopEnv base (messagePath C.D m) slots) (.ok (.data .u32 (.w32 t))) rest
  | [], [], .nil => rfl
  | tr :: ts, a :: as, .cons ⟨h1, _, h3⟩ h => by
    obtain ⟨p, body⟩ := tr
    cases (show p = _ from h1)
    have hn : BitVec.ofNat 32 a.field.tag.toNat = a.field.tag := by simp
    rw [List.cons_append, evalStmtArms]
    simp only [matchPat, hn, List.find?_cons]
    by_cases ht : t = a.field.tag
    · subst ht
      simp only [if_true, beq_self_eq_true]
      exact h3 slots S
    · have : (a.field.tag == t) = false := by rw [beq_eq_false_iff_ne]; exact fun h => ht h.symm
      simp only [ht, if_false, this]
      exact arms_eval S h

/-- No arm for an error. -/
theorem arms_err {base : Env} {b : Bytes} {m : Message} {e : Error} {slots : List RVal}
    {rest : List (Pat × ArmBody)} : ∀ {ts : List (Pat × ArmBody)} {as : List Arm}, List.Forall₂ (ArmIs C W rd m base b) ts as →
    evalStmtArms W (readerHost W) (loopEnv base (messagePath C.D m) slots) (.err e) (ts ++ rest) =
      evalStmtArms W (readerHost W) (loopEnv base (messagePath C.D m) slots) (.err e) rest
  | [], [], .nil => rfl
  | tr :: ts, a :: as, .cons ⟨h1, _, _⟩ h => by
    obtain ⟨p, body⟩ := tr
    cases (show p = _ from h1)
    rw [List.cons_append, evalStmtArms]
    simp only [matchPat]
    exact arms_err h

theorem leave_loop (base : Env) (p : Path) (slots slots' : List RVal) : (loopEnv base p slots).leave (loopEnv base p slots') = loopEnv base p slots' := by
  funext x
  unfold Env.leave loopEnv Env.set
  split <;> rfl

theorem leave_other (base : Env) (p : Path) (slots : List RVal) {x : Var} (hx : x ≠ .msg) (v : Val) :
    (loopEnv base p slots).leave ((loopEnv base p slots).set x v) = loopEnv base p slots := by
  funext y
  unfold Env.leave
  split
  · rename_i h; subst h; rw [Env.set_other _ _ (Ne.symm hx)]
  · rfl

/-- The arms after those of the fields. -/
def lastArms : List (Pat × ArmBody) :=
  [(.ok (.var .t), .block (.try_ (.mcall (.var .r) .readUnknown none [] (.cons (.var .bytes) (.one (.var .t)))))),
    (.err (.var .e), .simple (.returnErr (.var .e)))]

theorem bind_ok_run {σ α β : Type} {a : SM σ α} {k k' : α → SM σ β} {s : σ} (h : ∀ v s', a s = (.ok v, s') → k v s' = k' v s') :
    (a >>= k) s = (a >>= k') s := by
  simp only [SM.bind_run]
  rcases ha : a s with ⟨o, s'⟩
  cases o <;> first | rfl | exact h _ _ ha

/-- One turn of the loop. -/
theorem step_eval (A : Agree C W sub rd wr) {base : Env} {b : Bytes} (hr : base .r = some .reader) (hb : base .bytes = some (.input b))
    {m : Message} {ts : List (Pat × ArmBody)} (hts : List.Forall₂ (ArmIs C W rd m base b) ts (arms C.cfg m)) {slots : List RVal}
    (S : SlotsOk C.cfg m slots) :
    (do
        let v ← evalExpr W (readerHost W) (loopEnv base (messagePath C.D m) slots) (.mcall (.var .r) .nextTag none [] (.one (.var .bytes)))
        let env' ← evalStmtArms W (readerHost W) (loopEnv base (messagePath C.D m) slots) v (ts ++ lastArms)
        pure ((loopEnv base (messagePath C.D m) slots).leave env')) =
      (msgStep C rd W.fuel (arms C.cfg m) b slots >>= fun s => pure (loopEnv base (messagePath C.D m) s)) := by
  have hr' : loopEnv base (messagePath C.D m) slots .r = some .reader := loop_r (by decide) hr
  have hb' : loopEnv base (messagePath C.D m) slots .bytes = some (.input b) := loop_r (by decide) hb
  have hnt : evalExpr W (readerHost W) (loopEnv base (messagePath C.D m) slots) (.mcall (.var .r) .nextTag none [] (.one (.var .bytes))) =
      result (next_tag b >>= fun t => pure (.data .u32 (.w32 t))) := by
    rw [evalExpr, bytes_eval hr', Exprs.one, evalArgs, evalArg_val (bytes_eval hb'), evalArgs]
    rfl
  rw [hnt]
  funext r
  unfold msgStep
  rw [bind_assoc]
  simp only [SM.bind_run, result]
  rcases hn : next_tag b r with ⟨o, r'⟩
  cases o with
  | ok t =>
    simp only [SM.pure_run]
    rw [arms_eval S hts]
    cases hf : (arms C.cfg m).find? (fun a => a.field.tag == t) with
    | some a =>
      simp only [bind_assoc, pure_bind, leave_loop, SM.bind_run]
      rcases armRead C rd W.fuel a b r' with ⟨o, r''⟩
      cases o <;> first | rfl | (simp only [SM.pure_run, leave_loop])
    | none =>
      have hu : evalStmtArms W (readerHost W) (loopEnv base (messagePath C.D m) slots) (.ok (.data .u32 (.w32 t))) lastArms =
          (read_unknown C.T b t >>= fun _ => pure ((loopEnv base (messagePath C.D m) slots).set .t (.data .u32 (.w32 t)))) := by
        unfold lastArms
        rw [evalStmtArms]
        simp only [matchPat, evalArm]
        have h1 : (loopEnv base (messagePath C.D m) slots).set .t (.data .u32 (.w32 t)) .r = some .reader := by
          rw [Env.set_other _ _ (by decide)]; exact hr'
        have h2 : (loopEnv base (messagePath C.D m) slots).set .t (.data .u32 (.w32 t)) .bytes = some (.input b) := by
          rw [Env.set_other _ _ (by decide)]; exact hb'
        have h3 : method W (readerHost W) .reader .readUnknown none [] [.val (.input b), .val (.data .u32 (.w32 t))] =
          result (do read_unknown W.T b t; pure .unit) := rfl
        rw [evalExpr, evalExpr, bytes_eval h1, Exprs.one, evalArgs, evalArg_val (bytes_eval h2), evalArgs, evalArg_val (var_eval _ _ _ _),
          evalArgs]
        simp only [pure_bind, h3, result_unwrap_bind, bind_assoc, A.T]
      simp only [hu, bind_assoc, pure_bind, SM.bind_run, leave_other base _ slots (show Var.t ≠ .msg by decide)]
      rcases read_unknown C.T b t r' with ⟨o, r''⟩
      cases o <;> first | rfl | (simp only [SM.pure_run, leave_other base _ slots (show Var.t ≠ .msg by decide)])
  | err e =>
    simp only
    rw [arms_err hts]
    unfold lastArms
    rw [evalStmtArms]
    simp only [matchPat]
    rw [evalStmtArms]
    simp only [matchPat, evalArm, evalSimple, var_eval]
    rfl
  | panic => rfl
  | ub => rfl
  | timeout => rfl

/-- A map arm reads one entry. -/
theorem armRead_map {a : Arm} {b : Bytes} {fuel : Nat} (hb : a.field.boxed = false) (hc : a.choice = none)
    (hg : a.field.frequency.generated = .map) {v : RVal} {r r' : BytesReader} (h : armRead C rd fuel a b r = (.ok v, r')) :
    ∃ k x, v = .map [(k, x)] := by
  unfold armRead at h
  simp only [hb, hc, hg, Option.isSome_none, Bool.or_self, Bool.false_eq_true, if_false] at h
  cases ht : a.field.typ <;> simp only [ht] at h <;> (try (cases h; done))
  rw [SM.bind_run] at h
  split at h
  · cases h; exact ⟨_, _, rfl⟩
  all_goals cases h

/-- A turn of the loop keeps shapes. -/
theorem step_ok {base : Env} {b : Bytes} {m : Message} {ts : List (Pat × ArmBody)}
    (hts : List.Forall₂ (ArmIs C W rd m base b) ts (arms C.cfg m)) {slots slots' : List RVal} {fuel : Nat} {r r' : BytesReader}
    (S : SlotsOk C.cfg m slots) (h : msgStep C rd fuel (arms C.cfg m) b slots r = (.ok slots', r')) : SlotsOk C.cfg m slots' := by
  unfold msgStep at h
  rw [SM.bind_run] at h
  split at h
  · rename_i t r1 _
    cases hf : (arms C.cfg m).find? (fun a => a.field.tag == t) with
    | some a =>
      simp only [hf] at h
      rw [SM.bind_run] at h
      split at h
      · rename_i v r2 hv
        cases h
        have hp : Place C.cfg m a := by
          have ha := List.mem_of_find?_eq_some hf
          have : ∀ {ts : List (Pat × ArmBody)} {as : List Arm}, List.Forall₂ (ArmIs C W rd m base b) ts as → a ∈ as →
              Place C.cfg m a := by
            intro ts as h
            induction h with
            | nil => intro h; cases h
            | cons h _ ih =>
              intro hm
              rcases List.mem_cons.mp hm with rfl | hm
              · exact h.2.1
              · exact ih hm
          exact this hts ha
        exact S.step hp fun h1 h2 h3 => armRead_map h1 h2 h3 hv
      all_goals cases h
    | none =>
      simp only [hf] at h
      rw [SM.bind_run] at h
      split at h
      · cases h; exact S
      all_goals cases h
  all_goals cases h

theorem cond_run {α : Type} {c : RM Bool} {g : BytesReader → Bool} (h : c = fun r => (Out.ok (g r), r)) (k : Bool → RM α) (r : BytesReader) :
    (c >>= k) r = k (g r) r := by rw [h]; rfl

theorem not_eof_run {α β : Type} {step : α → RM α} {fuel : Nat} {a : α} {k : α → RM β} {r : BytesReader} (h : r.is_eof = false) :
    (whileNotEof step (fuel + 1) a >>= k) r = (step a >>= fun a => whileNotEof step fuel a >>= k) r := by
  rw [whileNotEof, bind_assoc]
  simp only [SM.bind_run, SM.get_run, h, Bool.false_eq_true, if_false]
  rcases step a r with ⟨o, r'⟩
  cases o <;> rfl

theorem eof_run {α β : Type} {step : α → RM α} {fuel : Nat} {a : α} {k : α → RM β} {r : BytesReader} (h : r.is_eof = true) :
    (whileNotEof step (fuel + 1) a >>= k) r = k a r := by
  rw [whileNotEof, bind_assoc]
  simp only [SM.bind_run, SM.get_run, h, if_true]
  rfl

/-- The loop. -/
theorem loop_eval (A : Agree C W sub rd wr) {base : Env} {b : Bytes} (hr : base .r = some .reader) (hb : base .bytes = some (.input b))
    {m : Message} {ts : List (Pat × ArmBody)} (hts : List.Forall₂ (ArmIs C W rd m base b) ts (arms C.cfg m)) :
    ∀ (fuel : Nat) {slots : List RVal}, SlotsOk C.cfg m slots →
    whileLoop (fun env => do
        let v ← evalExpr W (readerHost W) env (.not (.mcall (.var .r) .isEof none [] .nil))
        expectBool v)
      (fun env => do
        let v ← evalExpr W (readerHost W) env (.mcall (.var .r) .nextTag none [] (.one (.var .bytes)))
        let env' ← evalStmtArms W (readerHost W) env v (ts ++ lastArms)
        pure (env.leave env')) fuel (loopEnv base (messagePath C.D m) slots) =
      (whileNotEof (msgStep C rd W.fuel (arms C.cfg m) b) fuel slots >>= fun s => pure (loopEnv base (messagePath C.D m) s))
  | 0, slots, S => rfl
  | fuel + 1, slots, S => by
    have hr' : loopEnv base (messagePath C.D m) slots .r = some .reader := loop_r (by decide) hr
    have hc : (evalExpr W (readerHost W) (loopEnv base (messagePath C.D m) slots) (.not (.mcall (.var .r) .isEof none [] .nil)) >>=
        fun v => expectBool v) = (fun r => (Out.ok (!r.is_eof), r) : RM Bool) := by
      rw [evalExpr, evalExpr, bytes_eval hr', evalArgs]
      rfl
    funext r
    rw [whileLoop, step_eval A hr hb hts S, cond_run hc]
    cases he : r.is_eof
    · rw [not_eof_run he]
      simp only [Bool.not_false, if_true, bind_assoc, pure_bind]
      refine bind_ok_run fun s r' h => ?_
      rw [loop_eval A hr hb hts fuel (step_ok hts S h)]
    · rw [eof_run he]
      rfl

/-- Running the generated `from_reader`. -/
theorem read_body_eval (A : Agree C W sub rd wr) {base : Env} {b : Bytes} (hr : base .r = some .reader) (hb : base .bytes = some (.input b))
    {idx : MessageIndex} {m : Message} (hm : C.D.getMessage idx = some m) (hself : W.self = messagePath C.D m) {fs : List (Str × Ty)}
    (hfs : structFields C.D C.cfg m = some fs) (hsrc : ∀ s ∈ sources C.cfg m, SourceIn C s) {body : Body}
    (hbody : readBody C.D C.cfg m = some body) {slots : List RVal} (hd : C.dflt idx = .struct slots) (S : SlotsOk C.cfg m slots) :
    evalBody W (readerHost W) base body = (whileNotEof (msgStep C rd W.fuel (arms C.cfg m) b) W.fuel slots >>= fun s =>
      pure (.ok (.data (.adt (messagePath C.D m) false) (.struct s)))) := by
  unfold readBody at hbody
  obtain ⟨ts, hts, hbody⟩ := Option.bind_eq_some_iff.mp hbody
  obtain ⟨os, hos, rfl⟩ := Option.map_eq_some_iff.mp hbody
  have harms := arms_are A hr hb hm hfs hsrc hts hos
  have hdef : evalExpr W (readerHost W) base (.call .selfDefault [] .nil) =
      pure (.data (.adt (messagePath C.D m) false) (.struct slots)) := by
    rw [evalExpr, evalArgs]
    show (pure (Val.data (.adt W.self false) (W.default W.self)) : RM Val) = _
    rw [hself, A.default idx m hm, hd]
  have hok : ∀ s, evalExpr W (readerHost W) (loopEnv base (messagePath C.D m) s) (.call .ok [] (.one (.var .msg))) =
      pure (.ok (.data (.adt (messagePath C.D m) false) (.struct s))) := by
    intro s
    have hmsg : loopEnv base (messagePath C.D m) s .msg = some (.data (.adt (messagePath C.D m) false) (.struct s)) :=
      Env.set_same _ _ _
    rw [evalExpr, Exprs.one, evalArgs, evalArg_val (bytes_eval hmsg), evalArgs]
    rfl
  unfold evalBody
  have hl := loop_eval A hr hb harms W.fuel S
  simp only [evalStmts, evalStmt, hdef, pure_bind, bind_assoc]
  show (whileLoop _ _ W.fuel (loopEnv base (messagePath C.D m) slots) >>= _) = _
  have hl' : whileLoop (fun env => do
        let v ← evalExpr W (readerHost W) env (.not (.mcall (.var .r) .isEof none [] .nil))
        expectBool v)
      (fun env => do
        let v ← evalExpr W (readerHost W) env (.mcall (.var .r) .nextTag none [] (.one (.var .bytes)))
        let env' ← evalStmtArms W (readerHost W) env v (ts ++ os.flatten ++ lastArms)
        pure (env.leave env')) W.fuel (loopEnv base (messagePath C.D m) slots) = _ := hl
  unfold lastArms at hl'
  rw [hl']
  simp only [bind_assoc, pure_bind, hok]

/-- Running the generated `from_reader` of a unit message. -/
theorem unit_body_eval (A : Agree C W sub rd wr) {base : Env} (hr : base .r = some .reader)
    {idx : MessageIndex} {m : Message} (hm : C.D.getMessage idx = some m) (hself : W.self = messagePath C.D m) :
    evalBody W (readerHost W) base unitReadBody = (read_to_end >>= fun _ =>
      pure (.ok (.data (.adt (messagePath C.D m) false) (C.dflt idx)))) := by
  have hdef : evalExpr W (readerHost W) base (.call .selfDefault [] .nil) =
      pure (.data (.adt (messagePath C.D m) false) (C.dflt idx)) := by
    rw [evalExpr, evalArgs]
    show (pure (Val.data (.adt W.self false) (W.default W.self)) : RM Val) = _
    rw [hself, A.default idx m hm]
  have hok : evalExpr W (readerHost W) base (.call .ok [] (.one (.call .selfDefault [] .nil))) =
      pure (.ok (.data (.adt (messagePath C.D m) false) (C.dflt idx))) := by
    rw [evalExpr, Exprs.one, evalArgs, evalArg_val hdef, evalArgs]
    rfl
  have hend : evalExpr W (readerHost W) base (.mcall (.var .r) .readToEnd none [] .nil) = (do read_to_end; pure .unit) := by
    rw [evalExpr, bytes_eval hr, evalArgs]
    rfl
  unfold evalBody unitReadBody
  simp only [evalStmts, evalStmt, hend, pure_bind, bind_assoc, hok]

end

end QP.Rust
