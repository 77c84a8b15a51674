import Verif.Spec.Generated
/-!
# Names that Rust accepts

What a Rust compiler checks of the generated items before anything about their meaning can be said: nothing is defined twice.
And: what the literals written as custom defaults mean.
-/

namespace QP.Rust
open QP.Pbrs QP.Gen

/-- No path is defined twice, no field of a struct and no variant of a oneof is; no getter hides `get_size`. -/
structure Distinct (D : FileDescriptor) (cfg : Config) : Prop where
  messages : ∀ i j m m', D.getMessage i = some m → D.getMessage j = some m' → messagePath D m = messagePath D m' → i = j
  enums : ∀ e e' en en', D.getEnum e = some en → D.getEnum e' = some en' → enumPath D en = enumPath D en' → e = e'
  oneofs : ∀ (i j : MessageIndex) (m m' : Message) (k k' : Nat) (o o' : OneOf), D.getMessage i = some m → D.getMessage j = some m' →
    m.oneofs[k]? = some o → m'.oneofs[k']? = some o' → oneofPath D o = oneofPath D o' → i = j ∧ k = k'
  messageEnum : ∀ i m e en, D.getMessage i = some m → D.getEnum e = some en → messagePath D m ≠ enumPath D en
  messageOneof : ∀ i m j m', D.getMessage i = some m → D.getMessage j = some m' → ∀ o ∈ m'.oneofs, messagePath D m ≠ oneofPath D o
  enumOneof : ∀ e en j m', D.getEnum e = some en → D.getMessage j = some m' → ∀ o ∈ m'.oneofs, enumPath D en ≠ oneofPath D o
  fields : ∀ i m, D.getMessage i = some m → ((shownFields cfg m).map (·.name) ++ m.oneofs.map (·.name)).Nodup
  variants : ∀ i m, D.getMessage i = some m → ∀ o ∈ m.oneofs, ((o.shown cfg).map (·.name)).Nodup
  getters : cfg.generateGetters = true → ∀ i m, D.getMessage i = some m → ∀ f ∈ m.fields, f.default ≠ none → f.name ≠ c! "size"

/-- The type at which a custom default of a field of type `t` is written. -/
def litTy (D : FileDescriptor) (cfg : Config) (t : FieldType) : Ty :=
  match t with
  | .string_ => .ref .str
  | .bytes_ => .ref .slice
  | t => ((tyOf D cfg t).map (·.erase)).getD .bool

/-- The meaning `K` of Rust expressions, by their type, is right about the expressions pb-rs writes as defaults: that of the first
variant of an enum is its number, and custom defaults of non-message fields have the type of their field. -/
structure Literals (D : FileDescriptor) (cfg : Config) (K : Ty → Str → RVal) : Prop where
  first : ∀ e en s, D.getEnum e = some en → en.fullyQualified.head? = some s →
    K (.adt (enumPath D en) false) s = .w32 ((en.fields.map fun p => BitVec.ofInt 32 p.2).headD 0)
  typed : ∀ idx m, D.getMessage idx = some m → ∀ f ∈ m.fields, ∀ s, f.default = some s → f.typ.asMessage = none →
    f.frequency.generated = .singular → ∀ C : Ctx, C.D = D → HasType C (fun _ _ => False) f.typ (K (litTy D cfg f.typ) s)

end QP.Rust
