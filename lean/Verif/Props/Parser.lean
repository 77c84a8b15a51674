import Verif.Proofs.Printer
import Verif.Proofs.Reject
import Verif.Proofs.NegativeEnum
import Verif.Spec.Words
import Verif.Proofs.Panics
/-!
# The parser of schemas (C54-C58)

`Spec/Grammar.lean` says which texts are texts of a schema, `Spec/Printer.lean` writes one, `Spec/Opening.lean` has the
beginnings of files, `Spec/Panics.lean` the texts that the parser may panic on.
-/

set_option linter.unusedVariables false

namespace QP.Pbrs
open Grammar Parse

/-! ## C54: parsing a text of a schema -/

/-- The outcome without the schema, for the examples. -/
def outcome {α : Type} : Res α → Res Unit
  | .ok _ r => .ok () r
  | .err => .err
  | .panic => .panic

/-- C54: the parser, and `read_proto`, given any text of a schema, return the schema with nothing left. -/
theorem C54_parse {F : File} {s : Str} (h : FileText F s) : fileDescriptor s = .ok F [] ∧ readProto s = .ok F [] := by
  have := file_ok h
  exact ⟨this, by rw [readProto, this]; rfl⟩

theorem isWhite_iff (c : Char) : isWhite c = true ↔ WhiteSpace c := by
  unfold isWhite WhiteSpace
  simp only [Bool.or_eq_true, Bool.and_eq_true, decide_eq_true_eq, beq_iff_eq, List.mem_cons, List.not_mem_nil, or_false]
  omega

theorem dropWhile_nil {p : Char → Bool} {s : Str} (h : s.dropWhile p = []) : ∀ c ∈ s, p c = true := by
  induction s with
  | nil => simp
  | cons c s ih =>
    rw [List.dropWhile_cons] at h
    split at h
    · rename_i hc
      intro d hd
      rcases List.mem_cons.mp hd with rfl | hd
      · exact hc
      · exact ih h d hd
    · cases h

theorem trim_nil_iff (s : Str) : (trim s).isEmpty = true ↔ ∀ c ∈ s, WhiteSpace c := by
  have h0 : ∀ s : Str, (∀ c ∈ s, isWhite c = true) → s.dropWhile isWhite = [] := by
    intro s
    induction s with
    | nil => intro _; rfl
    | cons c s ih =>
      intro h
      rw [List.dropWhile_cons, if_pos (h c (List.mem_cons_self ..))]
      exact ih fun d hd => h d (List.mem_cons_of_mem _ hd)
  rw [List.isEmpty_iff, trim, List.reverse_eq_nil_iff]
  constructor
  · intro h c hc
    have h1 := dropWhile_nil h
    rw [← isWhite_iff]
    by_cases hw : ∀ d ∈ s, isWhite d = true
    · exact hw c hc
    · have hne : s.dropWhile isWhite ≠ [] := fun e => hw (dropWhile_nil e)
      cases hd : s.dropWhile isWhite with
      | nil => exact absurd hd hne
      | cons a l =>
        have ha : isWhite a = false := by
          have := List.head_dropWhile_not isWhite hne
          simp only [hd, List.head_cons] at this
          exact this
        have := h1 a (by rw [hd]; simp)
        rw [ha] at this
        cases this
  · intro h
    rw [h0 s fun c hc => (isWhite_iff c).mpr (h c hc)]
    rfl

/-- Whatever a file is accepted with, the rest of it that was not understood is white space. -/
theorem C54_rest {F : File} {s r : Str} (h : readProto s = .ok F r) : ∃ w, fileDescriptor s = .ok F w ∧ ∀ c ∈ w, WhiteSpace c := by
  unfold readProto at h
  cases hf : fileDescriptor s with
  | ok x w =>
    rw [hf] at h
    simp only at h
    split at h
    · rename_i ht
      cases h
      exact ⟨w, rfl, (trim_nil_iff _).mp ht⟩
    · cases h
  | err => rw [hf] at h; cases h
  | panic => rw [hf] at h; cases h

open Nom in
/-- White space of any kind may stand at the end of a file (also such as may not stand between words). -/
theorem C54_trailing {F : File} {s g w : Str} (hs : StatementsText .proto2 F s) (hg : Gap g) (hw : ∀ c ∈ w, WhiteSpace c)
    (hne : w ≠ []) (hb : ∀ c, w.head? = some c → ¬ Blank c) : readProto (s ++ g ++ w) = .ok F [] := by
  have hstart : Head NoStart w := by
    intro c hc
    have hm : c ∈ w := by cases w with
      | nil => cases hc
      | cons d ds => cases hc; simp
    have hwc := (isWhite_iff c).mpr (hw c hm)
    constructor
    · intro hl
      rw [not_white (Or.inl (Letter.wordChar hl))] at hwc
      cases hwc
    · rintro rfl
      revert hwc
      decide
  have hstop : Head Stop w := by
    intro c hc
    have hm : c ∈ w := by cases w with
      | nil => cases hc
      | cons d ds => cases hc; simp
    refine ⟨hb c hc, ?_⟩
    rintro rfl
    have := (isWhite_iff _).mpr (hw _ hm)
    revert this
    decide
  have hsemi : w.head? ≠ some ';' := by
    intro hc
    have hm : ';' ∈ w := by cases w with
      | nil => cases hc
      | cons d ds => cases hc; simp
    have := (isWhite_iff _).mpr (hw _ hm)
    revert this
    decide
  have herr : fileEvent .proto2 w = .err := by
    rw [fe_start hstart]
    exact value_err (br_err hstop)
  have hc : Clean (g ++ w) := clean_gap hg hstop hsemi
  have hsyn : syntaxP (s ++ (g ++ w)) = .err := by
    refine (statements_ok hs).1.1 _ ?_
    by_cases hge : g = []
    · subst hge; exact delimited_err (pair_err (tok_start hstart (by unfold Letter; decide)))
    · exact delimited_err (pair_err (tok_start (Gap1.headP ⟨hg, hge⟩ fun _ => noStart_gap) (by unfold Letter; decide)))
  have hev : ∃ evs, many0 (fileEvent .proto2) (s ++ (g ++ w)) = .ok evs w ∧
      ∀ y, evs.foldl Event.apply { desc := { syntax_ := y } } = setSyntax y F := by
    rcases many_end (p := fileEvent .proto2) (x := w) hg (fun hg => fe_gap hg hstop) herr with h | h
    · exact (statements_ok hs).1.2.1 hc h
    · exact (statements_ok hs).1.2.1 hc h
  obtain ⟨evs, h1, h2⟩ := hev
  have hfd : fileDescriptor (s ++ (g ++ w)) = .ok F w := by
    simp only [fileDescriptor, scan_none hsyn]
    rw [map_ok h1]
    exact congrArg (Res.ok · w) ((h2 .proto2).trans (setSyntax_same (statements_ok hs).2))
  rw [List.append_assoc, readProto, hfd]
  simp only
  rw [if_pos ((trim_nil_iff w).mpr hw)]

/-- For example a no-break space; another character is not accepted. -/
example : outcome (readProto (c! "message M { }" ++ [Char.ofNat 0xA0])) = .ok () [] ∧
    outcome (readProto (c! "message M { }" ++ [Char.ofNat 0x200B])) = .err := by decide +kernel

/-- So a text is the text of one schema only. -/
theorem C54_unambiguous {F F' : File} {s : Str} (h : FileText F s) (h' : FileText F' s) : F = F' := by
  have h1 := (C54_parse h).1
  rw [(C54_parse h').1] at h1
  cases h1
  rfl

/-- C54 for one text of each schema. -/
theorem C54_print {F : File} (h : PrintableFile F) : readProto (printFile F) = .ok F [] := (C54_parse (file_text h)).2

/-- A check for identifiers. -/
theorem word_of {w : Str} (h : (match w with
    | [] => false
    | c :: cs => (c.isAlpha || c == '_') && cs.all fun c => c.isAlphanum || c == '_') = true) : Word w := by
  cases w with
  | nil => cases h
  | cons c cs =>
    simp only [Bool.and_eq_true, Bool.or_eq_true, beq_iff_eq, List.all_eq_true] at h
    exact ⟨c, cs, rfl, h.1, h.2⟩

/-- A schema with a oneof, a map, an enum, a nested message, reserved numbers, options, an import, a service and an
`extend` block. -/
def exampleFile : File where
  desc := {
    package := c! "a.b"
    syntax_ := .proto3
    enums := [{ name := c! "E", fields := [(c! "X", 0), (c! "Y", 17)] }]
    messages := [{
      name := c! "M"
      fields := [
        { name := c! "f", frequency := .p3default, typ := .uint64, number := 1 },
        { name := c! "g", frequency := .p3map, typ := .map .stringCow (.messageOrEnum (c! "M.N")), number := 2 },
        { name := c! "h", frequency := .p3repeated, typ := .sint32, number := 300, packed := some true, deprecated := true }]
      oneofs := [{ name := c! "o", fields := [{ name := c! "x", frequency := .p3optional, typ := .bool, number := 4 }] }]
      messages := [{ name := c! "N", fields := [] }]
      reservedNums := some [7, 8] }] }
  imports := [c! "x.proto"]
  services := [{ name := c! "S", functions := [{ name := c! "r", arg := c! "M", ret := c! "M" }] }]
  extends_ := [{ name := c! "M", fields := [{ name := c! "z", frequency := .p3default, typ := .double, number := 100 }] }]

theorem example_printable : PrintableFile exampleFile := by
  refine ⟨?_, Or.inr (Or.inl (.dot (w := c! "a") (n := c! "b") (word_of (by decide)) (.word (word_of (by decide))))), ?_, ?_, ?_, ?_,
    rfl, rfl⟩
  · intro p hp
    rw [List.mem_singleton.mp hp]
    decide
  · intro e he
    rw [List.mem_singleton.mp he]
    refine ⟨word_of (by decide), ?_, rfl⟩
    intro v hv
    simp only [List.mem_cons, List.not_mem_nil, or_false] at hv
    rcases hv with rfl | rfl <;> exact ⟨word_of (by decide), by decide, by decide⟩
  · intro m hm
    rw [List.mem_singleton.mp hm]
    refine .mk (word_of (by decide)) ?_ ?_ (fun e he => by cases he) ?_ ?_ (fun l hl => by cases hl) rfl
    · intro f hf
      simp only [List.mem_cons, List.not_mem_nil, or_false] at hf
      rcases hf with rfl | rfl | rfl
      · exact ⟨⟨rfl, word_of (by decide), by decide, rfl, fun d hd => by cases hd⟩, by decide⟩
      · refine ⟨⟨⟨rfl, ?_, by decide, by decide⟩, word_of (by decide), by decide, rfl, fun d hd => by cases hd⟩, by decide⟩
        exact Or.inl (.dot (w := c! "M") (n := c! "N") (word_of (by decide)) (.word (word_of (by decide))))
      · exact ⟨⟨rfl, word_of (by decide), by decide, rfl, fun d hd => by cases hd⟩, by decide⟩
    · intro o ho
      rw [List.mem_singleton.mp ho]
      refine ⟨word_of (by decide), ?_, by decide, rfl⟩
      intro f hf
      rw [List.mem_singleton.mp hf]
      exact ⟨⟨rfl, word_of (by decide), by decide, rfl, fun d hd => by cases hd⟩, rfl⟩
    · intro n hn
      rw [List.mem_singleton.mp hn]
      exact .mk (word_of (by decide)) (fun _ h => by cases h) (fun _ h => by cases h) (fun _ h => by cases h)
        (fun _ h => by cases h) (fun _ h => by cases h) (fun _ h => by cases h) rfl
    · intro l hl
      cases hl
      exact ⟨by decide, by decide⟩
  · intro s hs
    rw [List.mem_singleton.mp hs]
    refine ⟨word_of (by decide), fun f hf => ?_⟩
    rw [List.mem_singleton.mp hf]
    exact ⟨word_of (by decide), word_of (by decide), word_of (by decide)⟩
  · intro e he
    rw [List.mem_singleton.mp he]
    refine ⟨Or.inl (.word (word_of (by decide))), by decide, fun f hf => ?_⟩
    rw [List.mem_singleton.mp hf]
    exact ⟨⟨rfl, word_of (by decide), by decide, rfl, fun d hd => by cases hd⟩, by decide⟩

/-- C54 of it. -/
example : readProto (printFile exampleFile) = .ok exampleFile [] := C54_print example_printable

/-- Its text. -/
example : printFile exampleFile = (c! "syntax = \"proto3\";
import \"x.proto\";
package a.b;
enum E {
X = 0;
Y = 17;
}
message M {
uint64 f = 1 ;
map<string, M.N> g = 2 ;
repeated sint32 h = 300 [packed = true][deprecated = true];
oneof o {
bool x = 4 ;
}
message N {
}
reserved 7, 8;
}
service S {
rpc r (M) returns (M);}
extend M {
double z = 100 ;}
") := by decide +kernel

/-! ## C55: the syntax statement -/

/-- C55, the part that holds: if the file begins with the syntax statement, and something follows it, then its statements are
read in that syntax. -/
theorem C55_first_partial {syn : Syntax} {F : File} {t s g : Str} (ht : SyntaxText syn t) (hs : StatementsText syn F s)
    (hg : EndGap g) (hne : s ++ g ≠ []) : readProto (t ++ s ++ g) = .ok F [] ∧ F.desc.syntax_ = syn :=
  ⟨(C54_parse (.stated ht hs hg hne)).2, (statements_ok hs).2⟩

/-- C55 fails, always: after a blank or a comment, the statements are read as those of a proto2 file (although the file
counts as a file in the syntax it states). -/
theorem C55_refuted {syn : Syntax} {F : File} {g0 t s g : Str} (h0 : Gap1 g0) (ht : SyntaxText syn t)
    (hs : StatementsText .proto2 F s) (hg : EndGap g) :
    readProto (g0 ++ t ++ s ++ g) = .ok { F with desc := { F.desc with syntax_ := syn } } [] := by
  rw [readProto, file_gap h0 ht hs hg]
  rfl

/-- For example, with a blank line before it, a field of a proto3 file is a proto2 optional field (which is `Option<u32>`, and
not packed, if it is repeated). -/
example :
    (match readProto (c! "syntax = \"proto3\"; message M { uint32 a = 1; }") with
      | .ok F _ => F.desc.messages.map fun m => m.fields.map (·.frequency)
      | _ => []) = [[.p3default]] ∧
    (match readProto (c! "\nsyntax = \"proto3\"; message M { uint32 a = 1; }") with
      | .ok F _ => F.desc.messages.map fun m => m.fields.map (·.frequency)
      | _ => []) = [[.p2optional]] := by decide +kernel

/-! ## C56: decimal and hexadecimal numbers -/

/-- A proto3 field without a label and options. -/
def plainField (t : FieldType) (name : Str) (n : Nat) : Field where
  name := name
  frequency := if t.isMap then .p3map else .p3default
  typ := t
  number := n

/-- The field `ty name = num;` after the statements `b` of the message `m`. -/
theorem simple_field {m : Message} {t : FieldType} {b ty name num : Str} {n : Nat} (hm : Word m.name) (hb : BodyText .proto3 m b)
    (hty : TypeText t ty) (hname : Word name) (hnum : Decimal n num) (hn : n < 2 ^ 31) :
    readProto (c! "syntax = \"proto3\"; message " ++ m.name ++ c! " {" ++ b ++ c! " " ++ ty ++ c! " " ++ name ++ c! " = " ++ num ++
      c! "; }") =
    .ok { desc := { syntax_ := .proto3, messages := [{ m with fields := m.fields ++ [plainField t name n] }] } } [] := by
  have hsp : Gap1 (c! " ") := ⟨.blank (by decide) .nil, by decide⟩
  have hf : FieldText .proto3 (plainField t name n)
      (ty ++ c! " " ++ name ++ c! " " ++ c! "=" ++ c! " " ++ num ++ [] ++ [] ++ [] ++ c! ";") := by
    refine ⟨[], _, rfl, ?_, .mk (kvs := []) hty hsp hname hsp.1 hsp.1 hnum rfl hn .nil .nil ⟨rfl, Or.inr ⟨rfl, rfl⟩, Or.inl ⟨rfl, rfl⟩⟩
      .nil rfl⟩
    show LabelText .proto3 t.isMap (if t.isMap then .p3map else .p3default) []
    cases h : t.isMap
    · exact .none3
    · exact .map3
  have hmt : MessageText .proto3 _ _ := .mk (m := { m with fields := m.fields ++ [_] }) (g1 := c! " ") (g2 := c! " ")
    (g3 := c! " ") (e := []) hsp hm hsp.1 (.field hb hsp.1 hf) hsp.1 (Or.inl rfl)
  have := (C54_parse (.stated (s := _) (.proto3 hsp.1 hsp.1 .nil) (.message .nil hsp.1 hmt) (Or.inl .nil) (by simp))).2
  simp only [List.append_assoc, List.cons_append, List.nil_append, List.append_nil] at this ⊢
  exact this

/-- C56, the part that holds of fields: any decimal notation of a number is read as that number. -/
theorem C56_field_partial {m : Message} {t : FieldType} {b ty name num : Str} {n : Nat} (hm : Word m.name)
    (hb : BodyText .proto3 m b) (hty : TypeText t ty) (hname : Word name) (hnum : Decimal n num) (hn : n < 2 ^ 31) :
    readProto (c! "syntax = \"proto3\"; message " ++ m.name ++ c! " {" ++ b ++ c! " " ++ ty ++ c! " " ++ name ++ c! " = " ++ num ++
      c! "; }") =
    .ok { desc := { syntax_ := .proto3, messages := [{ m with fields := m.fields ++ [plainField t name n] }] } } [] := simple_field hm hb hty hname hnum hn

/-- C56, the part that holds of the values of an enum: their numbers may be in both notations. -/
theorem C56_enum_partial {e b name num : Str} {l : List (Str × Int)} {n : Nat} (he : Word e) (hb : EnumBody l b) (hname : Word name)
    (hnum : Decimal n num ∨ ∃ h, Hex n h ∧ num = c! "0x" ++ h) (hn : n < 2 ^ 31) :
    readProto (c! "enum " ++ e ++ c! " {" ++ b ++ c! " " ++ name ++ c! " = " ++ num ++ c! "; }") =
      .ok { desc := { enums := [{ name := e, fields := l ++ [(name, (n : Int))] }] } } [] := by
  have hsp : Gap1 (c! " ") := ⟨.blank (by decide) .nil, by decide⟩
  have het : EnumText _ _ := .mk (g1 := c! " ") (g2 := c! " ") (g3 := c! " ") (e := []) hsp he hsp.1
    (.value hb hsp.1 hname hsp.1 hsp.1 hnum hn (.gap .nil)) hsp.1 (Or.inl rfl)
  have := (C54_parse (.default (.enum .nil .nil het) (Or.inl .nil))).2
  simp only [List.append_assoc, List.cons_append, List.nil_append, List.append_nil] at this ⊢
  exact this

/-- For example, 300 is `300`, `0300`, and, in an enum, also `0x12c` or `0x012C`. -/
example : Decimal 300 (c! "300") ∧ Decimal 300 (c! "0300") ∧ Hex 300 (c! "12c") ∧ Hex 300 (c! "012C") := by
  refine ⟨.more (.more (.digit (d := 3) (by decide)) (d := 0) (by decide)) (d := 0) (by decide),
    .more (.more (.more (.digit (d := 0) (by decide)) (d := 3) (by decide)) (d := 0) (by decide)) (d := 0) (by decide),
    .more (.more (.digit (d := 1) ?_) (d := 2) ?_) (d := 12) ?_,
    .more (.more (.more (.digit (d := 0) ?_) (d := 1) ?_) (d := 2) ?_) (d := 12) ?_⟩ <;> exact ⟨by decide, by decide⟩

/-- C56 fails, always: whatever precedes, and whatever follows, a field with a hexadecimal number is a syntax error. -/
theorem C56_refuted {syn : Syntax} {m : Bool} {q : Frequency} {o l ty g1 name g2 g3 r : Str} {t : FieldType} (ho : Opening syn o)
    (hl : LabelText syn m q l) (hty : TypeText t ty) (hk : ty ∉ keywords) (h1 : Gap1 g1) (hn : Word name) (h2 : Gap g2)
    (h3 : Gap g3) : readProto (o ++ l ++ ty ++ g1 ++ name ++ g2 ++ c! "=" ++ g3 ++ c! "0x" ++ r) = .err := by
  simp only [List.append_assoc]
  exact hex_bad ho hl hty hk h1 hn h2 h3

/-- For example. -/
example : outcome (readProto (c! "message M { uint32 a = 0x1; }")) = .err ∧ 
    outcome (readProto (c! "message M { uint32 a = 1; }")) = .ok () [] := by decide +kernel

/-- Nor is it true of negative numbers of enum values: whatever precedes, and whatever follows, a file with one is a syntax error. -/
theorem C56_refuted_negative {syn : Syntax} {o t name g g' r : Str} (ho : Start syn o) (ht : InEnum t) (hn : Word name)
    (hopt : name ≠ c! "option") (hg : Gap g) (hg' : Gap g') :
    readProto (o ++ t ++ name ++ g ++ c! "=" ++ g' ++ c! "-" ++ r) = .err := by
  simp only [List.append_assoc]
  obtain ⟨h1, h2⟩ := fe_enum_bad (syn := syn) ht (enum_bad (r := r) ht hn hopt hg hg')
  exact (start_bad (b := false) ho (inEnum_head ht).1 (inEnum_head ht).2 (by rw [h1]; exact .err) h2).eq_err

/-- The same in an enum of a message. -/
theorem C56_refuted_negative_nested {syn : Syntax} {o t name g g' r : Str} (ho : Opening syn o) (ht : InEnum t) (hn : Word name)
    (hopt : name ≠ c! "option") (hg : Gap g) (hg' : Gap g') :
    readProto (o ++ t ++ name ++ g ++ c! "=" ++ g' ++ c! "-" ++ r) = .err := by
  simp only [List.append_assoc]
  have h1 := ev_enum_bad (syn := syn) ht (enum_bad (r := r) ht hn hopt hg hg')
  exact (opening_bad (b := false) ho (inEnum_head ht).1 (inEnum_head ht).2 (by rw [h1]; exact .err)).eq_err

/-- For example. -/
example : outcome (readProto (c! "enum E { A = 0; B = -1; }")) = .err ∧ outcome (readProto (c! "message M { enum E { A = 0; B = -1; } }")) = .err ∧
    outcome (readProto (c! "enum E { A = 0; B = 1; }")) = .ok () [] := by decide +kernel

/-! ## C57: options -/

/-- C57, the part that holds: if the parser panics then the text has an option `packed` or `deprecated` that is not `true` or
`false`, or a bad range in an `extensions` statement, or is just a syntax statement. In particular the parser does not panic
on other options. -/
theorem C57_panics_partial {s : Str} (h : readProto s = .panic) : BadOption s ∨ BadExtensions s ∨ BareSyntax s := panic_inv h

/-- C57 fails, always: whatever precedes, and whatever follows, the parser panics on a field with an option `packed` or
`deprecated` that is neither `true` nor `false` (and no default). Among them are all lists of options that begin with a proper
one, as `[packed=true, deprecated=true]`, where the value of `packed` is `true, deprecated=true`. -/
theorem C57_refuted {syn : Syntax} {m : Bool} {q : Frequency} {o l ty g1 name g2 g3 num g4 opts g5 r k v : Str} {t : FieldType}
    {n : Nat} {kvs : List (Str × Str)} (ho : Opening syn o) (hl : LabelText syn m q l) (hty : TypeText t ty) (hk : ty ∉ keywords)
    (h1 : Gap1 g1) (hn : Word name) (h2 : Gap g2) (h3 : Gap g3) (hnum : Decimal n num) (hlt : n < 2 ^ 31) (h4 : Gap g4)
    (hopts : OptionsText kvs opts) (h5 : Gap g5) (hkey : k = c! "packed" ∨ k = c! "deprecated") (hv : kvs.lookup k = some v)
    (hv1 : v ≠ c! "true") (hv2 : v ≠ c! "false") (hd : kvs.lookup (c! "default") = none) :
    readProto (o ++ l ++ ty ++ g1 ++ name ++ g2 ++ c! "=" ++ g3 ++ num ++ g4 ++ opts ++ g5 ++ c! ";" ++ r) = .panic := by
  simp only [List.append_assoc]
  exact option_bad ho hl hty hk h1 hn h2 h3 hnum hlt h4 hopts h5 hkey hv hv1 hv2 hd

/-- The other two panics: a syntax statement with nothing after it, always; an `extensions` statement whose range ends in a
word. -/
theorem C57_bare {s : Str} (h : BareSyntax s) : fileDescriptor s = .panic := by
  obtain ⟨syn, h⟩ := h
  have h1 := syntax_ok (r := []) h
  rw [List.append_nil] at h1
  have h2 : scanSyntax s = .err := by
    simp only [scanSyntax, Nom.map, Nom.andThen, Nom.separatedList0, h1]
    rfl
  simp only [fileDescriptor, h2]

/-- Examples of each. -/
example : outcome (readProto (c! "message M { repeated uint32 a = 1 [packed=true, deprecated=true]; }")) = .panic ∧
    outcome (readProto (c! "message M { repeated uint32 a = 1 [packed=true] [deprecated=true]; }")) = .err ∧
    outcome (readProto (c! "message M { repeated uint32 a = 1 [packed=true][deprecated=true]; }")) = .ok () [] ∧
    outcome (readProto (c! "message M { extensions 100 to x; }")) = .panic ∧
    outcome (readProto (c! "syntax = \"proto3\";")) = .panic ∧
    outcome (readProto (c! "syntax = \"proto3\";\n")) = .ok () [] := by decide +kernel

/-- A list of options with a default first: all of it is the default. -/
example : (match readProto (c! "message M { optional uint32 a = 1 [default=7, deprecated=true]; }") with
      | .ok F _ => F.desc.messages.map fun m => m.fields.map fun f => (f.default, f.deprecated)
      | _ => []) = [[(some (c! "7, deprecated=true"), false)]] := by decide +kernel

/-! ## C53: several `reserved` statements -/

/-- The last `reserved` statement (of numbers) overrides the others: a field with a number reserved before it is accepted. -/
theorem C53_overwrite_refuted :
    (match readProto (c! "message M { reserved 1; reserved 2; optional uint32 a = 1; }") with
      | .ok F _ => F.desc.messages.map fun m => (m.reservedNums, m.fields.map (·.number))
      | _ => []) = [(some [2], [1])] := by decide +kernel

/-! ## C58: names that begin with the name of a scalar type -/

/-- C58, the part that holds: a type with any name that does not begin with the name of a scalar type (and is not one of five
keywords) is read as the type of that name. -/
theorem C58_name_partial {m : Message} {b ty name num : Str} {n : Nat} (hm : Word m.name) (hb : BodyText .proto3 m b)
    (hty : Name ty) (hs : ∀ p ∈ scalars, ¬ p.2 <+: ty)
    (hk : ty ∉ [c! "optional", c! "repeated", c! "required", c! "reserved", c! "map"]) (hname : Word name)
    (hnum : Decimal n num) (hn : n < 2 ^ 31) :
    readProto (c! "syntax = \"proto3\"; message " ++ m.name ++ c! " {" ++ b ++ c! " " ++ ty ++ c! " " ++ name ++ c! " = " ++ num ++
      c! "; }") =
    .ok { desc := { syntax_ := .proto3, messages := [{ m with fields := m.fields ++ [plainField (.messageOrEnum ty) name n] }] } } [] := simple_field hm hb (.name hty hs hk) hname hnum hn

/-- C58 fails, always: whatever precedes, and whatever follows, a field with a type whose name begins with the name of a scalar
type, but is longer, is a syntax error. -/
theorem C58_refuted {syn : Syntax} {m : Bool} {q : Frequency} {o l k ty g r : Str} {t : FieldType} (ho : Opening syn o)
    (hl : LabelText syn m q l) (hty : Name ty) (hk : (t, k) ∈ scalars) (hp : k <+: ty) (hne : ty ≠ k) (hg : Gap1 g) :
    readProto (o ++ l ++ ty ++ g ++ r) = .err := by
  obtain ⟨w, rfl⟩ := hp
  simp only [List.append_assoc]
  have := scalarName_bad (w := w) (r := r) ho hl hk (fun c hc => hty.chars c (by simp [hc])) (fun h => hne (by rw [h, List.append_nil])) hg
  rwa [List.append_assoc] at this

/-- For example. -/
example : outcome (readProto (c! "message stringList { } message M { stringList a = 1; }")) = .err ∧
    outcome (readProto (c! "message StringList { } message M { StringList a = 1; }")) = .ok () [] := by decide +kernel

/-- The beginnings of files in the statements above, and a type, are for example these. -/
example : Opening .proto3 (c! "syntax = \"proto3\"; message M { message N { /* here */") ∧ LabelText .proto3 false .p3repeated (c! "repeated ") ∧
    Name (c! "stringList") ∧ TypeText .uint32 (c! "uint32") ∧ c! "uint32" ∉ keywords ∧
    OptionsText [(c! "packed", c! "true, deprecated=true")] (c! "[packed=true, deprecated=true]") := by
  have hsp : Gap1 (c! " ") := ⟨.blank (by decide) .nil, by decide⟩
  refine ⟨?_, .repeated3 hsp, Or.inl (.word (word_of (by decide))), .scalar (by decide), by decide, ?_⟩
  · have h1 : InMessage .proto3 _ := .here (m := { name := c! "N", fields := [] }) (g1 := c! " ") (g2 := c! " ") (g3 := c! " /* here */")
      hsp (word_of (by decide)) hsp.1 .nil (.blank (by decide) (.block (b := c! " here ") (by decide) .nil))
    have h2 : InMessage .proto3 _ := .nested (m := { name := c! "M", fields := [] }) (g1 := c! " ") (g2 := c! " ") (g3 := c! " ")
      hsp (word_of (by decide)) hsp.1 .nil hsp.1 h1
    exact .stated (.proto3 (g1 := c! " ") (g2 := c! " ") (g3 := []) hsp.1 hsp.1 .nil) .nil hsp.1 h2
  · refine .cons (k := c! "packed") (v := c! "true, deprecated=true") (g1 := []) (g2 := []) (g3 := []) (b := []) (t := [])
      (word_of (by decide)) ⟨by decide, ⟨'t', rfl, by unfold Visible; decide, by decide⟩, ⟨'e', rfl, by unfold Visible; decide⟩⟩
      .nil .nil .nil (by intro c hc; cases hc) .nil

end QP.Pbrs
