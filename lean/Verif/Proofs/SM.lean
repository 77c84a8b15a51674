import Verif.Model.Writer
import Verif.Model.Reader
/-! Execution lemmas for the state monad and the elementary reads. -/

namespace QP

namespace SM
variable {σ α β : Type}

theorem pure_run (a : α) (s : σ) : (Pure.pure a : SM σ α) s = (.ok a, s) := rfl
theorem bind_run (m : SM σ α) (f : α → SM σ β) (s : σ) : (m >>= f) s =
    match m s with
    | (.ok a, s') => f a s'
    | (.err e, s') => (.err e, s')
    | (.panic, s') => (.panic, s')
    | (.ub, s') => (.ub, s')
    | (.timeout, s') => (.timeout, s') := rfl
theorem throw_run (e : Error) (s : σ) : (SM.throw e : SM σ α) s = (.err e, s) := rfl
theorem get_run (s : σ) : (SM.get : SM σ σ) s = (.ok s, s) := rfl
theorem set_run (s s' : σ) : (SM.set s : SM σ Unit) s' = (.ok (), s) := rfl
theorem lift_run (o : Out α) (s : σ) : (SM.lift o : SM σ α) s = (o, s) := rfl
theorem okOr_run (o : Option α) (e : Error) (s : σ) : (SM.okOr o e : SM σ α) s =
  match o with
  | some a => (.ok a, s)
  | none => (.err e, s) := rfl

theorem ite_run (c : Prop) [Decidable c] (m n : SM σ α) (s : σ) :
    (if c then m else n) s = if c then m s else n s := by split <;> rfl

theorem bind_ok {m : SM σ α} {f : α → SM σ β} {s s' : σ} {a : α} (h : m s = (.ok a, s')) :
    (m >>= f) s = f a s' := by rw [bind_run, h]

theorem bind_err {m : SM σ α} {f : α → SM σ β} {s s' : σ} {e : Error} (h : m s = (.err e, s')) :
    (m >>= f) s = (.err e, s') := by rw [bind_run, h]

instance : LawfulMonad (SM σ) := LawfulMonad.mk'
  (id_map := by
    intro α x; funext s
    show SM.bind x _ s = x s
    simp only [SM.bind]
    rcases x s with ⟨o, s'⟩; cases o <;> rfl)
  (pure_bind := by intros; rfl)
  (bind_assoc := by
    intro α β γ x f g; funext s
    show SM.bind (SM.bind x f) g s = SM.bind x _ s
    simp only [SM.bind]
    rcases x s with ⟨o, s'⟩; cases o <;> rfl)

end SM

/-- Execution of monadic programs. -/
macro "sm_simp" : tactic => `(tactic| simp only [SM.pure_run, SM.bind_run, SM.throw_run, SM.get_run,
  SM.set_run, SM.lift_run, SM.okOr_run, SM.ite_run])

namespace BytesReader

theorem read_u8_cons {bytes : Bytes} {r : BytesReader} {b : Byte} {l : Bytes}
    (h : bytes.drop r.start = b :: l) :
    read_u8 bytes r = (.ok b, ⟨r.start + 1, r.fin⟩) := by
  have : bytes[r.start]? = some b := by
    have := congrArg (fun l => l[0]?) h
    simpa using this
  simp only [read_u8, SM.bind_run, SM.get_run, SM.okOr_run, SM.set_run, SM.pure_run, this]

theorem read_u8_nil {bytes : Bytes} {r : BytesReader} (h : bytes.drop r.start = []) :
    read_u8 bytes r = (.err .UnexpectedEndOfBuffer, r) := by
  have : bytes[r.start]? = none := by
    simpa using List.drop_eq_nil_iff.mp h
  simp only [read_u8, SM.bind_run, SM.get_run, SM.okOr_run, this]

theorem drop_succ {bytes : Bytes} {n : Nat} {b : Byte} {l : Bytes}
    (h : bytes.drop n = b :: l) : bytes.drop (n + 1) = l := by
  have := congrArg (List.drop 1) h
  simpa [List.drop_drop] using this

end BytesReader
end QP
