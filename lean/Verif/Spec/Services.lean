import Verif.Model.Pbrs.Services
/-!
# Calls of a service generator
-/

namespace QP.Pbrs
open Parse

/-- `gen` is called once for each of the services, in their order, and writes these texts; the state is `s` before and `s'` after. -/
inductive Calls {σ : Type} (gen : RpcService → σ → Option Str × σ) : List RpcService → σ → List Str → σ → Prop where
  | done (s : σ) : Calls gen [] s [] s
  | call {r : RpcService} {rs : List RpcService} {t : Str} {ts : List Str} {s s' s'' : σ} :
      gen r s = (some t, s') → Calls gen rs s' ts s'' → Calls gen (r :: rs) s (t :: ts) s''

/-- A message without fields and oneofs, and so are those nested in it. -/
inductive Hollow : Message → Prop where
  | hollow {m : Message} : m.fields = [] → m.oneofs = [] → (∀ x ∈ m.messages, Hollow x) → Hollow m

/-- A generator whose state is the list of the services it has been called for. -/
def recorder (f : RpcService → Option Str) : RpcService → List RpcService → Option Str × List RpcService :=
  fun r seen => (f r, seen ++ [r])

end QP.Pbrs
