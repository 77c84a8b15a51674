import Verif.Spec.Grammar
/-!
# The beginning of a file, up to a place between the statements of a message
-/

namespace QP.Pbrs.Grammar
open Parse (File)

/-- The beginning of a message, up to a place between its statements or between those of a nested message. -/
inductive InMessage (syn : Syntax) : Str → Prop where
  | here {m : Message} {g1 g2 b g3 : Str} : Gap1 g1 → Word m.name → Gap g2 → BodyText syn m b → Gap g3 →
      InMessage syn (c! "message" ++ g1 ++ m.name ++ g2 ++ c! "{" ++ b ++ g3)
  | nested {m : Message} {g1 g2 b g3 t : Str} : Gap1 g1 → Word m.name → Gap g2 → BodyText syn m b → Gap g3 → InMessage syn t →
      InMessage syn (c! "message" ++ g1 ++ m.name ++ g2 ++ c! "{" ++ b ++ g3 ++ t)

/-- The beginning of a file: perhaps a syntax statement, some statements, and the beginning of a message. -/
inductive Opening : Syntax → Str → Prop where
  | default {F : File} {s g t : Str} : StatementsText .proto2 F s → Gap g → InMessage .proto2 t → Opening .proto2 (s ++ g ++ t)
  | stated {syn : Syntax} {F : File} {h s g t : Str} : SyntaxText syn h → StatementsText syn F s → Gap g → InMessage syn t →
      Opening syn (h ++ s ++ g ++ t)

/-- The beginning of a file, up to a place between its statements. -/
inductive Start : Syntax → Str → Prop where
  | default {F : File} {s g : Str} : StatementsText .proto2 F s → Gap g → Start .proto2 (s ++ g)
  | stated {syn : Syntax} {F : File} {h s g : Str} : SyntaxText syn h → StatementsText syn F s → Gap g → Start syn (h ++ s ++ g)

/-- The beginning of an enum, up to a place between its values. -/
inductive InEnum : Str → Prop where
  | mk {name g1 g2 b g3 : Str} {l : List (Str × Int)} : Gap1 g1 → Word name → Gap g2 → EnumBody l b → Gap g3 →
      InEnum (c! "enum" ++ g1 ++ name ++ g2 ++ c! "{" ++ b ++ g3)

/-- The keywords with which the other statements of a message begin. -/
def keywords : List Str := [c! "reserved", c! "message", c! "enum", c! "oneof", c! "extensions", c! "option"]

end QP.Pbrs.Grammar
