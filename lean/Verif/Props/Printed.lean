import Verif.Proofs.GrowEmit
import Verif.Props.CycleText
set_option linter.unusedVariables false
/-!
# Printing: what is added to a compiled schema leaves the text of the rest as it is (C123)
-/

namespace QP.Pbrs

variable {D : FileDescriptor} {ms : List Message} {es : List Enumerator}

/-- The compiled schema with more messages and enums at the end. -/
def FileDescriptor.addAll (D : FileDescriptor) (ms : List Message) (es : List Enumerator) : FileDescriptor :=
  { D with messages := D.messages ++ ms, enums := D.enums ++ es }

theorem get_left {α : Type} {l l' : List α} {n : Nat} {a : α} (h : l[n]? = some a) : (l ++ l')[n]? = some a := by
  obtain ⟨hn, _⟩ := List.getElem?_eq_some_iff.mp h
  rw [List.getElem?_append_left hn, h]

theorem addAll_message {i : MessageIndex} {m : Message} (h : D.getMessage i = some m) : (D.addAll ms es).getMessage i = some m := by
  cases i with
  | nil => exact h
  | cons a l =>
    simp only [FileDescriptor.getMessage] at h ⊢
    cases hd : D.messages[a]? with
    | none => rw [hd] at h; cases h
    | some t =>
      rw [hd] at h
      have : (D.addAll ms es).messages[a]? = some t := get_left hd
      rw [this]; exact h

theorem countAll_le : ∀ l : List Message, Message.countAll l ≤ Message.countAll (l ++ ms)
  | [] => by simp [Message.countAll]
  | m :: l => by
    simp only [List.cons_append, Message.countAll]
    have := countAll_le l
    omega

theorem addAll_enum {e : EnumIndex} {en : Enumerator} (h : D.getEnum e = some en) : (D.addAll ms es).getEnum e = some en := by
  unfold FileDescriptor.getEnum at h ⊢
  split at h
  · rename_i he
    first
    | rw [if_pos he]; exact get_left h
    | simp only [he]; exact get_left h
  · rename_i he
    cases hm : D.getMessage e.msgIndex with
    | none => simp [hm] at h
    | some m => rw [hm] at h; simp only [addAll_message hm]; first | exact h | (rw [if_neg he]; exact h)

theorem grown_addAll : Grown D (D.addAll ms es) :=
  ⟨rfl, rfl, rfl, fun _ _ => addAll_message, fun _ _ => addAll_enum, countAll_le _⟩

theorem emitAll_parts {α : Type} {f g : α → Emit Doc} (hfg : ∀ a, Ext (f a) (g a)) {l' : List α} {b : Doc} : ∀ {l : List α} {a : Doc}, emitAll f l = .ok a →
    emitAll g (l ++ l') = .ok b → ∃ u : Str, b.str = a.str ++ u
  | [], a, h, hb => by cases h; exact ⟨b.str, rfl⟩
  | x :: l, a, h, hb => by
    obtain ⟨d, h1, h2⟩ := emit_bind_inv h
    obtain ⟨ds, h3, h4⟩ := emit_bind_inv h2
    cases h4
    obtain ⟨d', h5, h6⟩ := emit_bind_inv hb
    obtain ⟨ds', h7, h8⟩ := emit_bind_inv h6
    cases h8
    rw [hfg x d h1] at h5
    cases h5
    obtain ⟨u, hu⟩ := emitAll_parts hfg h3 h7
    refine ⟨u, ?_⟩
    show (d ++ ds').str = (d ++ ds).str ++ u
    simp only [Doc.str_append, hu, List.append_assoc]

/-- **C123, printing.** If the schema that one run has compiled is that of another run with more messages and enums at the end, then the second file has the text of all
enums of the first as it is, then that of the new ones, then the text of all messages of the first as it is, then that of the new ones. -/
theorem C123_printed_partial {cfg : Config} {f f' : Str} {k k' : Nat} {t t' : Doc} (h : D.write cfg f k = .ok t) (h' : (D.addAll ms es).write cfg f' k' = .ok t') :
    ∃ enums messages head tail head' enums' messages' tail' : Str, D.writeEnums.map Doc.str = .ok enums ∧ (D.writeMessages cfg).map Doc.str = .ok messages ∧
      t.str = head ++ enums ++ messages ++ tail ∧ t'.str = head' ++ enums ++ enums' ++ messages ++ messages' ++ tail' := by
  unfold FileDescriptor.write at h h'
  obtain ⟨u, _, h⟩ := emit_bind_inv h
  obtain ⟨e, he, h⟩ := emit_bind_inv h
  obtain ⟨m, hm, h⟩ := emit_bind_inv h
  obtain ⟨u', _, h'⟩ := emit_bind_inv h'
  obtain ⟨e', he', h'⟩ := emit_bind_inv h'
  obtain ⟨m', hm', h'⟩ := emit_bind_inv h'
  cases h
  cases h'
  have q1 : ∃ v, e'.str = e.str ++ v := by
    unfold FileDescriptor.writeEnums at he he'
    have : ((D.addAll ms es).enums.filter fun e => !e.imported) = (D.enums.filter fun e => !e.imported) ++ es.filter fun e => !e.imported := List.filter_append ..
    rw [this] at he'
    exact emitAll_parts (fun _ => Ext.refl) he he'
  have q2 : ∃ v, m'.str = m.str ++ v := by
    unfold FileDescriptor.writeMessages at hm hm'
    have : ((D.addAll ms es).messages.filter fun e => !e.imported) = (D.messages.filter fun e => !e.imported) ++ ms.filter fun e => !e.imported := List.filter_append ..
    rw [this] at hm'
    exact emitAll_parts (fun a => grown_addAll.write a) hm hm'
  obtain ⟨v, hv⟩ := q1
  obtain ⟨w, hw⟩ := q2
  refine ⟨e.str, m.str, ((if cfg.headers then FileDescriptor.writeHeaders cfg f else .empty) ++ Doc.nl ++ u ++ D.writeImports).str,
    (Doc.concat (List.replicate k Doc.nl)).str ++ Doc.nl.str,
    ((if cfg.headers then FileDescriptor.writeHeaders cfg f' else .empty) ++ Doc.nl ++ u' ++ (D.addAll ms es).writeImports).str, v, w,
    (Doc.concat (List.replicate k' Doc.nl)).str ++ Doc.nl.str, by rw [he]; rfl, by rw [hm]; rfl, ?_, ?_⟩
  · simp only [Doc.str_append, List.append_assoc]
  · simp only [Doc.str_append, hv, hw, List.append_assoc]

namespace PrintedExample
open AddedExample

/-- A message with a field of a message type and a oneof, and ... -/
def first : FileDescriptor :=
  { messages := [{ name := c! "A", fields := [{ name := c! "b", frequency := .p2optional, typ := .message [1], number := 1 }], index := [0] },
      { name := c! "B", fields := [{ name := c! "s", frequency := .p2required, typ := .stringCow, number := 1 }], index := [1] }] }
/-- ... a message that refers to it. -/
def added : List Message := [{ name := c! "C", fields := [{ name := c! "a", frequency := .p2repeated, typ := .message [0], number := 1 }], index := [2] }]

/-- Both are printed, and there is something to print. -/
theorem C123_printed_example : ∃ t t' m, first.write {} (c! "x.proto") 0 = .ok t ∧ (first.addAll added []).write {} (c! "x.proto") 0 = .ok t' ∧
    first.writeMessages {} = .ok m ∧ c! "pub struct A<'a>" <:+: m.str ∧ ¬ c! "pub struct C<'a>" <:+: t.str ∧ c! "pub struct C<'a>" <:+: t'.str := by
  have h : (match first.write {} (c! "x.proto") 0, (first.addAll added []).write {} (c! "x.proto") 0, first.writeMessages {} with
      | .ok t, .ok t', .ok m => occurs (c! "pub struct A<'a>") m.str && !occurs (c! "pub struct C<'a>") t.str && occurs (c! "pub struct C<'a>") t'.str
      | _, _, _ => false) = true := by decide +kernel
  split at h
  · rename_i t t' m e1 e2 e3
    simp only [Bool.and_eq_true, Bool.not_eq_true'] at h
    refine ⟨t, t', m, e1, e2, e3, (occurs_iff _ _).mp h.1.1, fun hn => ?_, (occurs_iff _ _).mp h.2⟩
    rw [← occurs_iff, h.1.2] at hn
    cases hn
  · cases h

end PrintedExample
end QP.Pbrs
