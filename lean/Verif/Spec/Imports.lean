import Verif.Model.Pbrs.Imports
import Verif.Spec.Pipeline
/-!
# What importing means
-/

namespace QP.Pbrs

/-- File `p` can be read and parsed: it declares `D` and imports `imps`. -/
def Reads (fs : Files) (p : Str) (D : FileDescriptor) (imps : List Str) : Prop :=
  ∃ text, fs p = some text ∧ parseFile p text = .ok (D, imps)

/-- The import `imp` in file `p` means file `q`: the first of the include paths under which the file exists. -/
def ImportMeans (fs : Files) (search : List Str) (p imp q : Str) : Prop :=
  ∃ before dir after, search = before ++ dir :: after ∧ q = candidate p imp dir ∧ (fs q).isSome ∧
    ∀ d ∈ before, fs (candidate p imp d) = none

/-- File `p` imports file `q`. -/
def Imports (fs : Files) (search : List Str) (p q : Str) : Prop :=
  ∃ D imps imp, Reads fs p D imps ∧ imp ∈ imps ∧ ImportMeans fs search p imp q

/-- File `p` imports file `q`, directly or through other files, or is `q`. -/
inductive ImportsStar (fs : Files) (search : List Str) : Str → Str → Prop where
  | refl (p : Str) : ImportsStar fs search p p
  | step {p q r : Str} : ImportsStar fs search p q → Imports fs search q r → ImportsStar fs search p r

/-- No field has a map type whose key or value is again a map. -/
def NoNestedMaps (D : FileDescriptor) : Prop :=
  ∀ i m, D.getMessage i = some m → ∀ f ∈ m.allFields, f.typ.flat = true

/-- The declarations of the schema `D` are those of the file `p` itself: `m` is one of the messages that `p` declares, with the
package and module it has there; the only difference may be the mark "imported". -/
def DeclaredBy (fs : Files) (p : Str) (m : Message) : Prop :=
  ∃ D imps, Reads fs p D imps ∧ ∃ m0 ∈ D.messages, m = m0 ∨ m = m0.setImported

/-- The same for enums. -/
def EnumDeclaredBy (fs : Files) (p : Str) (e : Enumerator) : Prop :=
  ∃ D imps, Reads fs p D imps ∧ ∃ e0 ∈ D.enums, e = e0 ∨ e = { e0 with imported := true }

mutual
/-- A message without what reading files adds: packages, modules, marks. -/
def Message.bare : Message → Message
  | ⟨name, fields, oneofs, nums, names, _, _, messages, enums, _, index⟩ =>
    ⟨name, fields, oneofs.map (fun o => { name := o.name, fields := o.fields }), nums, names, false, [],
      Message.bareAll messages, enums.map (fun e => { name := e.name, fields := e.fields }), [], index⟩
/-- The same for a list. -/
def Message.bareAll : List Message → List Message
  | [] => []
  | m :: ms => m.bare :: Message.bareAll ms
end

end QP.Pbrs
