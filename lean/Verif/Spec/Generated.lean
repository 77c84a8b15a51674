import Verif.Model.Rust.Trees
import Verif.Model.Rust.Eval
import Verif.Spec.Message
/-!
# The program that generated code is

`Generates C P`: the program `P` has the structs, enums and functions that pb-rs prints for the descriptor `C.D`, under the paths
by which the printed text refers to them. That the trees used here are those of the printed text is C77.
-/

namespace QP.Rust
open QP.Pbrs QP.Gen

/-- The struct of a message and its functions. The functions of a unit message are the trait's own ones (types.rs 1720-1727). -/
def structDef (D : FileDescriptor) (cfg : Config) (m : Message) : Option StructDef :=
  (structFields D cfg m).bind fun fields =>
    (sizeBody D cfg m).bind fun size => (writeBody D cfg m).bind fun write => (readBody D cfg m).bind fun read =>
      (defaultFields D cfg m).map fun dflt =>
        ⟨fields, if m.mustGenerateImplDefault D cfg then some dflt else none, if m.isUnit then none else some size,
          if m.isUnit then none else some write, if m.isUnit then unitReadBody else read⟩

/-- `P` is the generated program of `C.D`. -/
structure Generates (C : Ctx) (P : Prog) (dflt : Path → RVal) : Prop where
  /-- Every message is a struct with the printed fields and functions. -/
  structs : ∀ idx m, C.D.getMessage idx = some m → ∃ s, structDef C.D C.cfg m = some s ∧ P.structs (messagePath C.D m) = some s
  /-- The fields of a struct have different names. -/
  names : ∀ idx m, C.D.getMessage idx = some m → ∀ fs, structFields C.D C.cfg m = some fs → (fs.map (·.1)).Nodup
  /-- Every oneof is an enum with the printed variants, which have different names. -/
  oneofs : ∀ idx m, C.D.getMessage idx = some m → ∀ o ∈ m.oneofs, ∃ vs, variantTys C.D C.cfg o = some vs ∧
    P.oneofs (oneofPath C.D o) = some vs ∧ (vs.map (·.1)).Nodup
  /-- Every enum has the printed numbers. -/
  enums : ∀ e en, C.D.getEnum e = some en → P.enums (enumPath C.D en) = some (en.fields.map fun p => BitVec.ofInt 32 p.2)
  /-- `default()` of a message. -/
  default : ∀ idx m, C.D.getMessage idx = some m → dflt (messagePath C.D m) = C.dflt idx
  /-- `default()` of an enum (types.rs 2175-2184): its first variant. -/
  enumDefault : ∀ e en, C.D.getEnum e = some en → dflt (enumPath C.D en) = .w32 ((C.enumNums e).headD 0)
  /-- The text printed for the first variant of an enum stands for it. -/
  first : ∀ e en s, C.D.getEnum e = some en → en.fullyQualified.head? = some s →
    P.const (.adt (enumPath C.D en) false) s = .w32 ((C.enumNums e).headD 0)
  /-- Custom defaults have the meaning `C.const` gives them, and the type of their field. -/
  const : ∀ idx m, C.D.getMessage idx = some m → ∀ f ∈ m.fields, ∀ s, f.default = some s → ∀ T, tyOf C.D C.cfg f.typ = some T →
    P.const (match f.typ with | .string_ => .ref .str | .bytes_ => .ref .slice | _ => T.erase) s = C.const f.typ s
  constTyped : ∀ idx m, C.D.getMessage idx = some m → ∀ f ∈ m.fields, ∀ s, f.default = some s → f.typ.asMessage = none →
    f.frequency.generated = .singular → HasType C (fun _ _ => False) f.typ (C.const f.typ s)

end QP.Rust
