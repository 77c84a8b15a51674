import Verif.Spec.Grammar
import Verif.Model.Pbrs.Parser
/-!
# Files with one syntax
-/

namespace QP.Pbrs

/-- A file that is read as a proto2 file does not begin with `syntax = "proto3";`. Every file with at most one syntax statement is like this;
protobuf does not allow more of them. (Where they contradict each other, the first decides about the labels of fields, the last about all else.) -/
def OneSyntax (text : Str) : Prop :=
  ∀ F r, Parse.readProto text = .ok F r → F.desc.syntax_ = .proto2 → ∀ t rest, Grammar.SyntaxText .proto3 t → text ≠ t ++ rest

end QP.Pbrs
