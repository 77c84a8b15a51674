import Verif.Model.Pbrs.Emit
/-!
# The feature `generateImplFromForEnums` (`pb-rs/src/types.rs` 2319-2353)

With this feature of the crate pb-rs, `OneOf::write_definition` also writes conversions into the enum of the oneof. `Emit` (and all that is proved
about whole files) is about pb-rs without it.
-/

namespace QP.Pbrs

/-- types.rs 2342-2347, one conversion. -/
def fromImplText (oneof : Str) (rustType : Doc) (variant : Str) : Doc :=
  ln d!"impl From<{rustType}> for OneOf{oneof} \{" ++ ln d!"   fn from(f: {rustType}) -> OneOf{oneof} \{"
    ++ ln d!"      OneOf{oneof}::{variant}(f)" ++ ln d!"   }" ++ ln d!"}"

namespace OneOf

/-- types.rs 2334-2350, the loop; `handled` are the types that have been handled. -/
def fromLoop (D : FileDescriptor) (cfg : Config) (oneof : Str) : List Str → List Field → Emit Doc
  | _, [] => pure .empty
  | handled, f :: fs => do
    let rustType ← f.typ.typeText D cfg
    if handled.contains rustType.str then fromLoop D cfg oneof handled fs
    else do
      let rest ← fromLoop D cfg oneof (handled ++ [rustType.str]) fs
      pure (fromImplText oneof rustType f.name ++ rest)

/-- types.rs 2326-2353, `generate_impl_from_for_enums`. -/
def writeFromImpls (D : FileDescriptor) (cfg : Config) (o : OneOf) : Emit Doc := fromLoop D cfg o.name [] (o.shown cfg)

/-- types.rs 2288-2324, `write_definition` with the feature. -/
def writeDefinitionFrom (D : FileDescriptor) (cfg : Config) (o : OneOf) : Emit Doc := do
  let a ← o.writeDefinition D cfg
  let b ← o.writeFromImpls D cfg
  pure (a ++ b)

end OneOf

end QP.Pbrs
