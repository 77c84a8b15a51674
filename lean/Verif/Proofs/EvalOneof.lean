import Verif.Proofs.EvalSize
import Mathlib.Data.List.Forall2
set_option linter.unusedVariables false
set_option linter.unusedSimpArgs false
/-!
Running the generated code of oneofs and of whole messages: `get_size`.
-/

namespace QP.Rust
open QP.Pbrs QP.Gen QP.BytesReader

/-! ## Lists -/

theorem mapM_append {α β : Type} {t : α → Option β} : ∀ {l l' : List α} {bs bs' : List β}, l.mapM t = some bs → l'.mapM t = some bs' →
    (l ++ l').mapM t = some (bs ++ bs')
  | [], l', bs, bs', h, h' => by cases h; exact h'
  | a :: l, l', bs, bs', h, h' => by
    rw [List.mapM_cons] at h
    obtain ⟨b, hb, h⟩ := Option.bind_eq_some_iff.mp h
    obtain ⟨cs, hcs, h⟩ := Option.bind_eq_some_iff.mp h
    cases h
    rw [List.cons_append, List.mapM_cons, hb, mapM_append hcs h']
    rfl

theorem mapM_map {α β γ : Type} {t : β → Option γ} {g : α → β} : ∀ {l : List α}, (l.map g).mapM t = l.mapM fun a => t (g a)
  | [] => rfl
  | a :: l => by rw [List.map_cons, List.mapM_cons, List.mapM_cons, mapM_map]

theorem mapM_congr {α β : Type} {t t' : α → Option β} : ∀ {l : List α}, (∀ a ∈ l, t a = t' a) → l.mapM t = l.mapM t'
  | [], _ => rfl
  | a :: l, h => by rw [List.mapM_cons, List.mapM_cons, h a (by simp), mapM_congr fun b hb => h b (by simp [hb])]

theorem mapM_map_some {α β γ : Type} {t : α → Option β} {g : β → γ} : ∀ {l : List α} {bs : List β}, l.mapM t = some bs →
    (l.mapM fun a => (t a).map g) = some (bs.map g)
  | [], bs, h => by cases h; rfl
  | a :: l, bs, h => by
    rw [List.mapM_cons] at h
    obtain ⟨b, hb, h⟩ := Option.bind_eq_some_iff.mp h
    obtain ⟨cs, hcs, h⟩ := Option.bind_eq_some_iff.mp h
    cases h
    rw [List.mapM_cons, hb, mapM_map_some hcs]
    rfl

theorem mapM_length {α β : Type} {t : α → Option β} : ∀ {l : List α} {bs : List β}, l.mapM t = some bs → bs.length = l.length
  | [], bs, h => by cases h; rfl
  | a :: l, bs, h => by
    rw [List.mapM_cons] at h
    obtain ⟨b, hb, h⟩ := Option.bind_eq_some_iff.mp h
    obtain ⟨cs, hcs, h⟩ := Option.bind_eq_some_iff.mp h
    cases h
    simp [mapM_length hcs]

theorem mapM_get {α β : Type} {t : α → Option β} : ∀ {l : List α} {bs : List β}, l.mapM t = some bs → ∀ {j : Nat} {a : α}, l[j]? = some a →
    ∃ b, bs[j]? = some b ∧ t a = some b
  | [], bs, h, j, a, hj => by simp at hj
  | a :: l, bs, h, j, a', hj => by
    rw [List.mapM_cons] at h
    obtain ⟨b, hb, h⟩ := Option.bind_eq_some_iff.mp h
    obtain ⟨cs, hcs, h⟩ := Option.bind_eq_some_iff.mp h
    cases h
    cases j with
    | zero => simp at hj; subst hj; exact ⟨b, rfl, hb⟩
    | succ j => exact mapM_get hcs (by simpa using hj)

theorem mapM_get' {α β : Type} {t : α → Option β} {l : List α} {bs : List β} (h : l.mapM t = some bs) {j : Nat} {b : β} (hj : bs[j]? = some b) :
    ∃ a, l[j]? = some a ∧ t a = some b := by
  have hlt : j < l.length := by
    rw [← mapM_length h]
    exact (List.getElem?_eq_some_iff.mp hj).1
  obtain ⟨b', hb', hab⟩ := mapM_get h (List.getElem?_eq_getElem hlt)
  rw [hj] at hb'
  cases hb'
  exact ⟨_, List.getElem?_eq_getElem hlt, hab⟩

theorem forall₂_zipWith {α β γ δ : Type} {R : α → δ → Prop} {g : β → γ → δ} : ∀ {ts : List α} {ms : List β} {vs : List γ},
    ts.length = ms.length → vs.length = ms.length →
    (∀ (j : Nat) (t : α) (m : β) (v : γ), ts[j]? = some t → ms[j]? = some m → vs[j]? = some v → R t (g m v)) → List.Forall₂ R ts (List.zipWith g ms vs)
  | [], [], [], _, _, _ => .nil
  | t :: ts, m :: ms, v :: vs, h1, h2, h => by
    refine .cons (h 0 t m v rfl rfl rfl) (forall₂_zipWith (by simpa using h1) (by simpa using h2) ?_)
    intro j t' m' v' a b c
    exact h (j + 1) t' m' v' (by simpa using a) (by simpa using b) (by simpa using c)
  | [], m :: ms, _, h1, _, _ => by simp at h1
  | t :: ts, [], _, h1, _, _ => by simp at h1
  | [], [], v :: vs, _, h2, _ => by simp at h2
  | t :: ts, m :: ms, [], _, h2, _ => by simp at h2

theorem findIdx_nodup {β : Type} : ∀ {fs : List (Str × β)} {j : Nat} {n : Str} {t : β}, (fs.map (·.1)).Nodup → fs[j]? = some (n, t) →
    fs.findIdx? (fun g => g.1 == n) = some j
  | [], j, n, t, _, h => by simp at h
  | f :: fs, j, n, t, hn, h => by
    rw [List.findIdx?_cons]
    cases j with
    | zero => simp at h; subst h; simp
    | succ j =>
      have h' : fs[j]? = some (n, t) := by simpa using h
      rw [List.map_cons, List.nodup_cons] at hn
      have hne : (f.1 == n) = false := by
        rw [beq_eq_false_iff_ne]
        rintro rfl
        exact hn.1 (List.mem_map.mpr ⟨(f.1, t), List.mem_of_getElem? h', rfl⟩)
      rw [hne, findIdx_nodup hn.2 h']
      rfl

section
variable {C : Ctx} {W : World} {sub : MessageIndex → RVal → Prop} {rd : MessageIndex → Bytes → RM RVal}
  {wr : MessageIndex → MessageWrite RVal} {σ : Type}

/-! ## Fields of structs -/

theorem field_lookup (A : Agree C W sub rd wr) {idx : MessageIndex} {m : Message} (hm : C.D.getMessage idx = some m)
    {fs : List (Str × Ty)} (hfs : structFields C.D C.cfg m = some fs) {j : Nat} {n : Str} {T : Ty} (hj : fs[j]? = some (n, T)) :
    W.field (messagePath C.D m) n = some (j, T.erase) := by
  obtain ⟨fs', hfs', hW, hn⟩ := A.structs idx m hm
  rw [hfs] at hfs'
  cases hfs'
  have hj' : (fs.map fun f => (f.1, f.2.erase))[j]? = some (n, T.erase) := by rw [List.getElem?_map, hj]; rfl
  unfold World.field
  rw [hW]
  show ((fs.map fun f => (f.1, f.2.erase)).findIdx? (fun g => g.1 == n)).bind _ = _
  rw [findIdx_nodup (by rw [List.map_map]; exact hn) hj']
  show ((fs.map fun f => (f.1, f.2.erase))[j]?).map _ = _
  rw [hj']
  rfl

theorem self_eval (A : Agree C W sub rd wr) (H : Host σ) {env : Env} {idx : MessageIndex} {m : Message}
    (hm : C.D.getMessage idx = some m) {slots : List RVal}
    (hs : env .self = some (.data (.ref (.adt (messagePath C.D m) false)) (.struct slots)))
    {fs : List (Str × Ty)} (hfs : structFields C.D C.cfg m = some fs) {j : Nat} {n : Str} {T : Ty} (hj : fs[j]? = some (n, T))
    {v : RVal} (hv : slots[j]? = some v) : evalExpr W H env (selfDot n) = pure (.data T.erase v) := by
  simp only [selfDot, evalExpr, hs, orStuck, pure_bind, getField, Ty.strip, field_lookup A hm hfs hj, Option.bind_some, hv, Option.map_some]

/-! ## Arms -/

theorem arms_skip {H : Host σ} {env : Env} {v : Val} : ∀ {pre rest : List (Pat × Expr)}, (∀ b ∈ pre, matchPat W env b.1 v = .no) →
    evalArms W H env v (Arms.of (pre ++ rest)) = evalArms W H env v (Arms.of rest)
  | [], rest, _ => rfl
  | b :: pre, rest, h => by
    show evalArms W H env v (.cons b.1 b.2 (Arms.of (pre ++ rest))) = _
    rw [evalArms, h b (by simp)]
    exact arms_skip fun c hc => h c (by simp [hc])

theorem stmtArms_skip {H : Host σ} {env : Env} {v : Val} : ∀ {pre rest : List (Pat × ArmBody)}, (∀ b ∈ pre, matchPat W env b.1 v = .no) →
    evalStmtArms W H env v (pre ++ rest) = evalStmtArms W H env v rest
  | [], rest, _ => rfl
  | b :: pre, rest, h => by
    rw [List.cons_append, evalStmtArms, h b (by simp)]
    exact stmtArms_skip fun c hc => h c (by simp [hc])

/-- A oneof of a message. -/
structure OneofIn (C : Ctx) (o : OneOf) : Prop where
  boxed : ∀ f ∈ o.shown C.cfg, f.boxed = true → ∃ i, f.typ = .message i
  mem : ∃ idx m, C.D.getMessage idx = some m ∧ o ∈ m.oneofs

/-- The enum of a oneof in the program. -/
theorem oneof_variants (A : Agree C W sub rd wr) {o : OneOf} (O : OneofIn C o) : ∃ vs, W.oneofs (oneofPath C.D o) = some vs ∧
    (vs.map (·.1)) = (o.shown C.cfg).map (·.name) ∧ ((o.shown C.cfg).map (·.name)).Nodup ∧
    ∀ (i : Nat) (f : Field), (o.shown C.cfg)[i]? = some f → ∃ T, tyOf C.D C.cfg f.typ = some T ∧
      vs[i]? = some (f.name, if f.boxed then .box T.erase else T.erase) := by
  obtain ⟨idx, m, hm, ho⟩ := O.mem
  obtain ⟨vs, hvs, hW, hn⟩ := A.oneofs idx m hm o ho
  have hnames : vs.map (·.1) = (o.shown C.cfg).map (·.name) := by
    apply List.ext_getElem?
    intro i
    rw [List.getElem?_map, List.getElem?_map]
    cases hi : (o.shown C.cfg)[i]? with
    | none =>
      have : vs[i]? = none := by
        rw [List.getElem?_eq_none_iff] at hi ⊢
        rw [mapM_length hvs]; exact hi
      rw [this]; rfl
    | some f =>
      obtain ⟨b, hb, hfb⟩ := mapM_get hvs hi
      obtain ⟨T, hT, rfl⟩ := Option.map_eq_some_iff.mp hfb
      rw [hb]; rfl
  refine ⟨_, hW, ?_, ?_, ?_⟩
  · rw [List.map_map, ← hnames]; rfl
  · rw [← hnames]; exact hn
  · intro i f hf
    obtain ⟨b, hb, hfb⟩ := mapM_get hvs hf
    obtain ⟨T, hT, rfl⟩ := Option.map_eq_some_iff.mp hfb
    refine ⟨T, hT, ?_⟩
    rw [List.getElem?_map, hb]
    cases f.boxed <;> rfl

theorem match_variant {env : Env} {p : Path} {vs : List (Str × Ty)} (hW : W.oneofs p = some vs) {i : Nat} {n : Str} {t : Ty}
    (hi : vs[i]? = some (n, t)) (x : Str) (q : Pat) (v : RVal) :
    matchPat W env (.variant p x q) (.data (.ref (.adt p false)) (.choice i v)) =
      if n = x then matchPat W env q (.data (.ref t) v) else .no := by
  simp only [matchPat, if_true, hW, hi]

theorem match_variant_none {env : Env} {p : Path} {vs : List (Str × Ty)} (hW : W.oneofs p = some vs) (x : Str) (q : Pat) :
    matchPat W env (.variant p x q) (.data (.ref (.adt p false)) .none) = .no := by
  simp only [matchPat, if_true, hW]

/-- Before the arm of a variant there are arms of other variants. -/
theorem pre_names {α : Type} {o : OneOf} {t : Field → Option (Pat × α)} {p : Path} {cfg : Config}
    (ht : ∀ f a, t f = some a → ∃ q, a.1 = .variant p f.name q) {as : List (Pat × α)} (has : (o.shown cfg).mapM t = some as)
    (hn : ((o.shown cfg).map (·.name)).Nodup) {i : Nat} {f : Field} (hf : (o.shown cfg)[i]? = some f) :
    ∃ a post, as = as.take i ++ a :: post ∧ t f = some a ∧ ∀ b ∈ as.take i, ∃ y q, b.1 = .variant p y q ∧ f.name ≠ y := by
  obtain ⟨a, ha, hfa⟩ := mapM_get has hf
  have hi := (List.getElem?_eq_some_iff.mp ha).1
  refine ⟨a, as.drop (i + 1), ?_, hfa, ?_⟩
  · have : as[i] = a := (List.getElem?_eq_some_iff.mp ha).2
    rw [← this, ← List.drop_eq_getElem_cons, List.take_append_drop]
  · intro b hb
    obtain ⟨j, hj, hbj⟩ := List.mem_iff_getElem.mp hb
    have hji : j < i := by have := List.length_take_le i as; simp at hj; omega
    have hb' : as[j]? = some b := by
      rw [← hbj, List.getElem_take, List.getElem?_eq_getElem]
    obtain ⟨g, hg, hgb⟩ := mapM_get' has hb'
    obtain ⟨q, hq⟩ := ht g b hgb
    refine ⟨g.name, q, hq, ?_⟩
    intro he
    have h1 : ((o.shown cfg).map (·.name))[i]? = some f.name := by rw [List.getElem?_map, hf]; rfl
    have h2 : ((o.shown cfg).map (·.name))[j]? = some f.name := by rw [List.getElem?_map, hg, he]; rfl
    have := (List.getElem?_inj (List.getElem?_eq_some_iff.mp h1).1 hn).mp (h1.trans h2.symm)
    omega

/-- The size of a oneof. -/
theorem size_oneof (A : Agree C W sub rd wr) {H : Host σ} {env : Env} {o : OneOf} (O : OneofIn C o) {e : Expr} {v : RVal}
    (he : oneofSize C.D C.cfg o = some e) {Q : Field → RVal → Prop}
    (hv : MemberTyped C Q sub (.oneof (o.shown C.cfg)) v)
    (hself : evalExpr W H env (selfDot o.name) = pure (.data (.adt (oneofPath C.D o) false) v)) :
    evalExpr W H env e = pure (.usize (sizeMember C wr (.oneof (o.shown C.cfg)) v)) := by
  obtain ⟨as, has, rfl⟩ := Option.map_eq_some_iff.mp he
  obtain ⟨vs, hW, _, hn, hty⟩ := oneof_variants A O
  have harm : ∀ f a, oneofSizeTree C.D o f = some a → ∃ q, a.1 = .variant (oneofPath C.D o) f.name q := by
    intro f a h
    unfold oneofSizeTree at h
    simp only at h
    split at h
    · obtain ⟨s, _, rfl⟩ := Option.map_eq_some_iff.mp h; exact ⟨_, rfl⟩
    · split at h <;> (obtain ⟨s, _, rfl⟩ := Option.map_eq_some_iff.mp h; exact ⟨_, rfl⟩)
  simp only [evalExpr, hself, pure_bind, mkRef, orStuck]
  rcases hv with rfl | ⟨i, f, x, hf, rfl, hx⟩
  · rw [arms_skip]
    · show evalArms W H env _ (.cons (.variantNone (oneofPath C.D o)) (.num 0) .nil) = _
      rw [evalArms]
      simp only [matchPat, if_true, hW, evalExpr]
      rfl
    · intro b hb
      obtain ⟨j, hj, hbj⟩ := List.mem_iff_getElem.mp hb
      obtain ⟨g, hg, hgb⟩ := mapM_get' has (j := j) (by rw [List.getElem?_eq_getElem hj, hbj])
      obtain ⟨q, hq⟩ := harm g b hgb
      rw [hq, match_variant_none hW]
  · obtain ⟨a, post, hsplit, hfa, hpre⟩ := pre_names harm has hn hf
    obtain ⟨T, hT, hvi⟩ := hty i f hf
    rw [hsplit, List.append_assoc, arms_skip]
    · show evalArms W H env _ (.cons a.1 a.2 _) = _
      have hsz : sizeMember C wr (.oneof (o.shown C.cfg)) (.choice i x) = sizeofVarint f.tag + sizeTyp wr f.typ x := by
        simp only [sizeMember, hf]
      rw [evalArms, hsz]
      unfold oneofSizeTree at hfa
      simp only at hfa
      split at hfa
      · rename_i hfx
        obtain ⟨s, hs, rfl⟩ := Option.map_eq_some_iff.mp hfa
        rw [match_variant hW hvi, if_pos rfl]
        simp only [matchPat]
        rw [fixed_tree hfx hs, fixed_size hfx]
        exact sum_tag _ (num_eval H env _)
      · split at hfa
        · rename_i hnd
          obtain ⟨s, hs, rfl⟩ := Option.map_eq_some_iff.mp hfa
          have hb : f.boxed = false := by
            cases hb : f.boxed
            · rfl
            · obtain ⟨k, hk⟩ := O.boxed f (List.mem_of_getElem? hf) hb
              rw [hk] at hnd; cases hnd
          rw [hb] at hvi
          rw [match_variant hW hvi, if_pos rfl]
          simp only [matchPat]
          refine sum_tag _ (size_eval A H hT hs hx (t' := T.erase) ?_ (tyOf_strip hT) (fun _ => rfl))
          simp only [evalExpr, Env.set_same, orStuck, pure_bind, deref]
          rfl
        · rename_i hnd
          obtain ⟨s, hs, rfl⟩ := Option.map_eq_some_iff.mp hfa
          rw [match_variant hW hvi, if_pos rfl]
          simp only [matchPat]
          refine sum_tag _ (size_eval A H hT hs hx (var_eval H env _ _) ?_ ?_)
          · cases f.boxed <;> exact tyOf_strip hT
          · intro hprim
            exact absurd (needs_primitive hprim (tyOf_resolved hT)) hnd
    · intro b hb
      obtain ⟨y, q, hbq, hne⟩ := hpre b hb
      rw [hbq, match_variant hW hvi, if_neg hne]

/-! ## Messages -/

/-- The fields and oneofs of a message for which code is generated. -/
def sources (cfg : Config) (m : Message) : List (Field ⊕ OneOf) := (shownFields cfg m).map .inl ++ m.oneofs.map .inr

/-- The member of a struct. -/
def memberOf (cfg : Config) : Field ⊕ OneOf → Member
  | .inl f => .field f
  | .inr o => .oneof (o.shown cfg)

theorem members_sources (cfg : Config) (m : Message) : members cfg m = (sources cfg m).map (memberOf cfg) := by
  unfold members sources
  rw [List.map_append, List.map_map, List.map_map]
  rfl

/-- A name and type of a struct's field. -/
def memberTy (D : FileDescriptor) (cfg : Config) : Field ⊕ OneOf → Option (Str × Ty)
  | .inl f => (fieldTy D cfg f).map fun t => (f.name, t)
  | .inr o => (o.hasLifetime D cfg).map fun l => (o.name, Ty.adt (oneofPath D o) l)

theorem structFields_sources {D : FileDescriptor} {cfg : Config} {m : Message} {fs : List (Str × Ty)} (h : structFields D cfg m = some fs) :
    (sources cfg m).mapM (memberTy D cfg) = some fs := by
  unfold structFields at h
  obtain ⟨gs, hgs, h⟩ := Option.bind_eq_some_iff.mp h
  obtain ⟨os, hos, rfl⟩ := Option.map_eq_some_iff.mp h
  exact mapM_append (by rw [mapM_map]; exact hgs) (by rw [mapM_map]; exact hos)

/-- What is known about a field or oneof. -/
def SourceIn (C : Ctx) : Field ⊕ OneOf → Prop
  | .inl f => FieldIn C f
  | .inr o => OneofIn C o

theorem foldl_eval {H : Host σ} {env : Env} : ∀ {ts : List (List Expr)} {ks : List Nat},
    List.Forall₂ (fun ts k => ∀ a n, evalExpr W H env a = pure (.usize n) → evalExpr W H env (addTerms a ts) = pure (.usize (n + k))) ts ks →
    ∀ {a : Expr} {n : Nat}, evalExpr W H env a = pure (.usize n) → evalExpr W H env (ts.foldl addTerms a) = pure (.usize (n + ks.sum))
  | [], [], .nil, a, n, h => h
  | t :: ts, k :: ks, .cons h1 h2, a, n, h => by
    rw [List.foldl_cons, foldl_eval h2 (h1 a n h), List.sum_cons, Nat.add_assoc]

/-- Running the generated `get_size`. -/
theorem size_body_eval (A : Agree C W sub rd wr) {H : Host σ} {env : Env} {idx : MessageIndex} {m : Message}
    (hm : C.D.getMessage idx = some m) {slots : List RVal}
    (hs : env .self = some (.data (.ref (.adt (messagePath C.D m) false)) (.struct slots)))
    {fs : List (Str × Ty)} (hfs : structFields C.D C.cfg m = some fs) {b : Body} (hb : sizeBody C.D C.cfg m = some b)
    (hsrc : ∀ s ∈ sources C.cfg m, SourceIn C s) {Q : Field → RVal → Prop} (hlen : slots.length = (members C.cfg m).length)
    (hty : ∀ p ∈ (members C.cfg m).zip slots, MemberTyped C Q sub p.1 p.2) :
    evalBody W H env b = pure (.usize (List.zipWith (sizeMember C wr) (members C.cfg m) slots).sum) := by
  unfold sizeBody at hb
  obtain ⟨ts, hts, hb⟩ := Option.bind_eq_some_iff.mp hb
  obtain ⟨os, hos, rfl⟩ := Option.map_eq_some_iff.mp hb
  have hall : (sources C.cfg m).mapM (fun s => match s with
      | .inl f => sizeTerms C.D C.cfg f
      | .inr o => (oneofSize C.D C.cfg o).map fun e => [e]) = some (ts ++ os.map fun e => [e]) :=
    mapM_append (by rw [mapM_map]; exact hts) (by rw [mapM_map]; exact mapM_map_some hos)
  have hfs' := structFields_sources hfs
  have hmem := members_sources C.cfg m
  show (pure env >>= fun env => evalExpr W H env _) = _
  rw [pure_bind, hmem]
  have := foldl_eval (W := W) (H := H) (env := env) (ts := ts ++ os.map fun e => [e])
    (ks := List.zipWith (sizeMember C wr) ((sources C.cfg m).map (memberOf C.cfg)) slots) ?_ (num_eval H env 0)
  · rw [Nat.zero_add] at this
    exact this
  · refine forall₂_zipWith ?_ ?_ ?_
    · rw [mapM_length hall, List.length_map]
    · rw [hlen, hmem]
    · intro j t mem v ht hmj hv a n ha
      rw [List.getElem?_map] at hmj
      obtain ⟨s, hsj, rfl⟩ := Option.map_eq_some_iff.mp hmj
      obtain ⟨t', ht', hst⟩ := mapM_get hall hsj
      rw [ht] at ht'
      cases ht'
      obtain ⟨ft, hft, hsf⟩ := mapM_get hfs' hsj
      have hin := hsrc s (List.mem_of_getElem? hsj)
      have hmt : MemberTyped C Q sub (memberOf C.cfg s) v := by
        refine hty (memberOf C.cfg s, v) ?_
        rw [hmem]
        refine List.mem_of_getElem? (i := j) ?_
        rw [List.getElem?_zip_eq_some]
        exact ⟨by rw [List.getElem?_map, hsj]; rfl, hv⟩
      cases s with
      | inl f =>
        obtain ⟨FT, hFT, rfl⟩ := Option.map_eq_some_iff.mp hsf
        exact size_field A hin hFT hst hmt (self_eval A H hm hs hfs hft hv) ha
      | inr o =>
        obtain ⟨l, hl, rfl⟩ := Option.map_eq_some_iff.mp hsf
        obtain ⟨e, he, rfl⟩ := Option.map_eq_some_iff.mp hst
        exact addTerms_one ha (size_oneof A hin he hmt (self_eval A H hm hs hfs hft hv))

end

end QP.Rust
