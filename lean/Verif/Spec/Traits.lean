import Verif.Spec.RustTypes
import Verif.Spec.Generated
/-!
# Which Rust types implement which traits

The rules of the standard library (and of `PackedFixed`, `quick-protobuf/src/reader.rs` 722, 959) for the types that occur in generated files.
Nothing here is about protocol buffers, except for what pb-rs derives at the end.
-/

namespace QP.Rust
open QP.Pbrs QP.Gen

inductive Trait where
  | debug | partialEq | eq | clone | copy | default | hash | ord
deriving DecidableEq, Repr

/-- What `KVMap` is: `std::collections::HashMap` or `hashbrown::HashMap`, or `alloc::collections::BTreeMap`. -/
inductive MapKind where
  | hash | btree
deriving DecidableEq, Repr

/-- `t` implements `tr`; `A p tr` says it of the struct or enum `p`. The rules for `Option`, `Box`, `Vec`, `HashMap`, `BTreeMap` are those of their
documentation, `PackedFixed` has `derive(Debug, Clone, Default)` and an `impl PartialEq`. -/
def Implements (A : Path → Trait → Prop) (kind : MapKind) (tr : Trait) : Ty → Prop
  | .i32 | .i64 | .u32 | .u64 | .bool | .usize => True
  | .f32 | .f64 => tr = .debug ∨ tr = .partialEq ∨ tr = .clone ∨ tr = .copy ∨ tr = .default
  | .cowStr | .cowBytes | .string | .vecU8 => tr ≠ .copy
  | .str | .slice => tr = .debug ∨ tr = .partialEq ∨ tr = .eq ∨ tr = .hash ∨ tr = .ord
  | .ref t => tr = .copy ∨ tr = .clone ∨ (tr ≠ .default ∧ Implements A kind tr t)
  | .adt p _ => A p tr
  | .option t => tr = .default ∨ Implements A kind tr t
  | .box t => tr ≠ .copy ∧ Implements A kind tr t
  | .vec t => tr = .default ∨ (tr ≠ .copy ∧ Implements A kind tr t)
  | .packed t => (tr = .debug ∨ tr = .clone ∨ tr = .default ∨ tr = .partialEq) ∧ Implements A kind tr t
  | .kvmap k v =>
    match tr with
    | .default => True
    | .copy => False
    | .debug | .clone => Implements A kind tr k ∧ Implements A kind tr v
    | .partialEq => match kind with
      | .hash => (Implements A kind .eq k ∧ Implements A kind .hash k) ∧ Implements A kind .partialEq v
      | .btree => Implements A kind .partialEq k ∧ Implements A kind .partialEq v
    | .eq => match kind with
      | .hash => (Implements A kind .eq k ∧ Implements A kind .hash k) ∧ Implements A kind .eq v
      | .btree => Implements A kind .eq k ∧ Implements A kind .eq v
    | .hash | .ord => kind = .btree ∧ Implements A kind tr k ∧ Implements A kind tr v

/-- The bounds that are asked of the parts of a type: the elements of a `PackedFixed` are `Copy + PartialEq` (reader.rs 723), and the keys of a map
can be looked up (`insert`: `Eq + Hash`, or `Ord`). -/
def Bounded (A : Path → Trait → Prop) (kind : MapKind) : Ty → Prop
  | .option t | .box t | .vec t | .ref t => Bounded A kind t
  | .packed t => Implements A kind .copy t ∧ Implements A kind .partialEq t ∧ Bounded A kind t
  | .kvmap k v => (match kind with
      | .hash => Implements A kind .eq k ∧ Implements A kind .hash k
      | .btree => Implements A kind .ord k) ∧ Bounded A kind k ∧ Bounded A kind v
  | _ => True

/-! ## The derived traits of a generated program -/

/-- types.rs 1583-1601: what the struct of a message derives (`Default` is derived or written out, 1632-1664). -/
def structTraits : List Trait := [.debug, .partialEq, .clone, .default]

/-- types.rs 2294: what the enum of a oneof derives. -/
def oneofDerives : List Trait := [.debug, .partialEq, .clone]

/-- types.rs 2183, 2200-2206: what an enum derives, and `impl Default`. -/
def enumTraits : List Trait := [.debug, .partialEq, .eq, .clone, .copy, .default]

/-- What the structs and enums of a program implement (of a oneof: what it derives, and `impl Default`, types.rs 2319-2330). -/
def HasTrait (P : Prog) (p : Path) (tr : Trait) : Prop :=
  ((P.structs p).isSome ∧ tr ∈ structTraits) ∨ ((P.oneofs p).isSome ∧ (tr ∈ oneofDerives ∨ tr = .default)) ∨ ((P.enums p).isSome ∧ tr ∈ enumTraits)

/-- types.rs 1445-1455: what `KVMap` stands for. -/
def mapKind (cfg : Config) : MapKind := if cfg.hashbrown then .hash else if cfg.nostd then .btree else .hash

/-- The key types of the protocol buffers language: integers, booleans and strings (byte strings are harmless, too). -/
def KeyType : FieldType → Prop
  | .int32 | .int64 | .uint32 | .uint64 | .sint32 | .sint64 | .fixed32 | .fixed64 | .sfixed32 | .sfixed64 | .bool => True
  | .stringCow | .string_ | .bytesCow | .bytes_ => True
  | .float | .double | .enum _ | .message _ | .map .. | .messageOrEnum _ => False

/-- Maps (and maps in maps) have such keys. -/
def KeysOk : FieldType → Prop
  | .map k v => KeyType k ∧ KeysOk v
  | _ => True

end QP.Rust
