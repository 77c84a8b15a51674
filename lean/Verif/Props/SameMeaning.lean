import Verif.Props.Frame
import Verif.Props.Parser
set_option linter.unusedVariables false
/-!
# Layout, comments and what pb-rs does not use do not matter (C122)
-/

namespace QP.Pbrs
open Grammar Parse

/-- The texts `t` and `t'` are files of the protobuf language (Spec/Grammar.lean) that declare the same: package, imports, messages, enums and services. What
`extend` blocks declare may differ, as may blanks, comments, options that pb-rs does not know, the spelling of numbers and where things that have no name stand. -/
def SameMeaning (t t' : Str) : Prop :=
  ∃ F F' : File, FileText F t ∧ FileText F' t' ∧ F'.desc = F.desc ∧ F'.imports = F.imports ∧ F'.services = F.services

/-- Two collections of files with the same paths, where the files at each path mean the same (or are the same text). -/
def SameMeanings (fs fs' : Files) : Prop :=
  ∀ p, fs p = fs' p ∨ ∃ t t', fs p = some t ∧ fs' p = some t' ∧ SameMeaning t t'

theorem SameMeaning.parse {t t' : Str} (h : SameMeaning t t') (p : Str) : parseFile p t' = parseFile p t ∧ servicesOf t' = servicesOf t := by
  obtain ⟨F, F', h1, h2, e1, e2, e3⟩ := h
  have r1 := (C54_parse h1).2
  have r2 := (C54_parse h2).2
  constructor
  · unfold parseFile
    rw [r1, r2]
    dsimp only
    rw [e1, e2]
  · unfold servicesOf
    rw [r1, r2]
    dsimp only
    rw [e3]

theorem SameMeanings.isSome {fs fs' : Files} (h : SameMeanings fs fs') (p : Str) : (fs p).isSome = (fs' p).isSome := by
  rcases h p with h | ⟨t, t', h1, h2, _⟩
  · rw [h]
  · rw [h1, h2]; rfl

/-- **C122.** From files that mean the same pb-rs reads the same, or reports the same error. -/
theorem C122_read {fs fs' : Files} (h : SameMeanings fs fs') (search : List Str) (n : Nat) :
    ∀ file, readProtoFile fs' search n file = readProtoFile fs search n file := by
  induction n with
  | zero => intro file; rfl
  | succ n ih =>
    intro file
    have hr : readProtoFile fs' search n = readProtoFile fs search n := funext ih
    have hf : ∀ imp, findImport fs' search file imp = findImport fs search file imp := fun imp => by
      unfold findImport
      exact find_moved fun p _ => (h.isSome p).symm
    have go : ∀ (l : List Str) (D0 : FileDescriptor),
        fetchImports fs' search (readProtoFile fs' search n) file l D0 = fetchImports fs search (readProtoFile fs search n) file l D0 := by
      intro l
      induction l with
      | nil => intro D0; rfl
      | cons imp l ihl =>
        intro D0
        unfold fetchImports
        rw [hf imp]
        cases findImport fs search file imp with
        | none => rfl
        | some q =>
          dsimp only
          rw [ih q]
          cases readProtoFile fs search n q with
          | error e => rfl
          | ok f => exact ihl _
    unfold readProtoFile
    rcases h file with e | ⟨t, t', e, e', hm⟩
    · rw [e]
      cases fs' file with
      | none => rfl
      | some text =>
        dsimp only
        cases parseFile file text with
        | error e => rfl
        | ok r => exact go r.2 r.1
    · rw [e, e']
      dsimp only
      rw [(hm.parse file).1]
      cases parseFile file t with
      | error e => rfl
      | ok r => exact go r.2 r.1

/-- **C122.** And it generates the same text. -/
theorem C122_text {n : Nat} {j : Job} {d d' : Disk} (h : SameMeanings d.file d'.file) :
    j.compiled n d' = j.compiled n d ∧ j.out n d' = j.out n d ∧ j.text n d' = j.text n d := by
  have hc : j.compiled n d' = j.compiled n d := by
    unfold Job.compiled compileFile
    rw [C122_read h]
  refine ⟨hc, by unfold Job.out; rw [hc], ?_⟩
  unfold Job.text
  rw [hc]
  have : servicesOf ((d'.file j.inFile).getD []) = servicesOf ((d.file j.inFile).getD []) := by
    rcases h j.inFile with e | ⟨t, t', e, e', hm⟩
    · rw [e]
    · rw [e, e']; exact (hm.parse j.inFile).2
  rw [this]

/-- **C122.** Two successful runs, from files that mean the same, leave the same text at the same path. -/
theorem C122_run {junk junk' : Str} {n : Nat} {j : Job} {d₁ d₂ d₁' d₂' : Disk} (hn : j.noOutput = false) (h : SameMeanings d₁.file d₂.file)
    (h₁ : writeProto junk n j d₁ = (.ok (), d₁')) (h₂ : writeProto junk' n j d₂ = (.ok (), d₂')) :
    ∃ p t, j.out n d₁ = some p ∧ d₁'.file p = some t ∧ d₂'.file p = some t := by
  obtain ⟨p, t, e1, e2, e3⟩ := C73_written hn h₁
  obtain ⟨p', t', e1', e2', e3'⟩ := C73_written hn h₂
  obtain ⟨_, ho, ht⟩ := C122_text (n := n) (j := j) h
  have ep := e1.symm.trans (ho.symm.trans e1')
  cases ep
  have et := e2.symm.trans (ht.symm.trans e2')
  cases et
  exact ⟨p, t, e1, e3, e3'⟩

/-! ## The example -/

namespace MeaningExample
open RunExample

def field : Field := { name := c! "a", frequency := .p2optional, typ := .int32, number := 1 }
def msg : Message := { name := c! "M", fields := [field] }
def file : File := { desc := { syntax_ := .proto2, messages := [msg] } }

/-- A text ... -/
def plain : Str := c! "message M { optional int32 a = 1; }"
/-- ... and another one that means the same. -/
def fancy : Str := c! "// A file.\noption java_package = \"x\";\nmessage M { /* the first */ optional int32 a = 01 [json_name = \"b\"]; }\n// end"
/-- A text that does not. -/
def other : Str := c! "message M { optional int32 a = 2; }"

theorem space : Gap (c! " ") := .blank (Or.inl rfl) .nil
theorem space1 : Gap1 (c! " ") := ⟨space, by decide⟩

theorem text {s g gf num g4 opts e : Str} {kvs : List (Str × Str)} (hs : StatementsText .proto2 { desc := { syntax_ := .proto2 } } s) (hg : Gap g)
    (hf : Gap gf) (hn : Decimal 1 num) (h4 : Gap g4) (ho : OptionsText kvs opts) (hk : HasOptions .proto2 field kvs) (he : EndGap e) :
    FileText file ((s ++ g ++ (c! "message" ++ c! " " ++ msg.name ++ c! " " ++ c! "{" ++ ([] ++ gf ++ ((c! "optional" ++ c! " ") ++
      (c! "int32" ++ c! " " ++ field.name ++ c! " " ++ c! "=" ++ c! " " ++ num ++ g4 ++ opts ++ [] ++ c! ";"))) ++ c! " " ++ c! "}" ++ [])) ++ e) := by
  have hfield : FieldText .proto2 field ((c! "optional" ++ c! " ") ++
      (c! "int32" ++ c! " " ++ field.name ++ c! " " ++ c! "=" ++ c! " " ++ num ++ g4 ++ opts ++ [] ++ c! ";")) :=
    ⟨_, _, rfl, .optional2 space1, .mk (n := 1) (.scalar (by decide)) space1 (word_of (by decide)) space space hn rfl (by decide) h4 ho hk .nil rfl⟩
  have hbody := BodyText.field (BodyText.nil (syn := .proto2) (name := c! "M")) hf hfield
  exact .default (.message hs hg (.mk (m := msg) space1 (word_of (by decide)) space hbody space (Or.inl rfl))) he

theorem same {F : File} {s t : Str} (h : FileText F s) (e : s = t) : FileText F t := e ▸ h

theorem plain_file : FileText file plain := by
  have h := text (s := []) (g := []) (gf := c! " ") (num := c! "1") (g4 := []) (opts := []) (kvs := []) (e := []) .nil .nil space (.digit (d := 1) (by decide)) .nil .nil
    ⟨rfl, Or.inr ⟨rfl, rfl⟩, Or.inl ⟨rfl, rfl⟩⟩ (Or.inl .nil)
  exact same h (by decide +kernel)

theorem line {l : Str} (h : (l.all fun c => c ≠ '\n' ∧ c ≠ '\r') = true) : ∀ c ∈ l, c ≠ '\n' ∧ c ≠ '\r' := by
  intro c hc
  simpa using List.all_eq_true.mp h c hc

theorem fancy_file : FileText file fancy := by
  have hs := StatementsText.option (g := c! "//" ++ c! " A file." ++ c! "\n" ++ []) (StatementsText.nil (syn := .proto2)) (.line (line (by decide)) (Or.inl rfl) .nil)
    (.plain (g1 := c! " ") (name := c! "java_package") (g2 := c! " ") (g3 := c! " ") (v := c! "\"x\"") space1 (word_of (by decide)) space space
      (by decide) (by decide) (by decide) ⟨'"', rfl, by unfold Blank; decide, by decide, by decide⟩)
  have hb : Gap (' ' :: (c! "/*" ++ c! " the first " ++ c! "*/" ++ c! " ")) := .blank (Or.inl rfl) (.block (by decide) space)
  have ho : OptionsText [(c! "json_name", c! "\"b\"")] (c! "[" ++ [] ++ c! "json_name" ++ c! " " ++ c! "=" ++ c! " " ++ c! "\"b\"" ++ [] ++ c! "]" ++ []) :=
    .cons (word_of (by decide)) ⟨by decide, ⟨'"', rfl, ⟨by decide, by decide⟩, by decide⟩, ⟨'"', rfl, by decide, by decide⟩⟩ .nil space space
      (fun c h => by cases h) .nil
  have h := text (gf := _) (num := c! "01") (g4 := c! " ") (g := c! "\n") (e := c! "\n" ++ c! "//" ++ c! " end") hs (.blank (Or.inr (Or.inr (Or.inr rfl))) .nil) hb
    (.more (n := 0) (d := 1) (s := c! "0") (.digit (d := 0) (by decide)) (by decide)) space ho
    ⟨by decide, Or.inr ⟨by decide, rfl⟩, Or.inl ⟨by decide, rfl⟩⟩
    (Or.inr ⟨_, _, .blank (Or.inr (Or.inr (Or.inr rfl))) .nil, line (by decide), rfl⟩)
  exact same h (by decide +kernel)

/-- **C122.** The two texts mean the same, and so they are generated from alike; something is generated, and from the third text something else. -/
theorem C122_example : SameMeaning plain fancy ∧ plain ≠ fancy ∧
    (∀ n, abJob.text n (disk [(c! "x.proto", fancy)] []) = abJob.text n (disk [(c! "x.proto", plain)] [])) ∧
    (abJob.text 1 (disk [(c! "x.proto", plain)] [])).isSome = true ∧
    abJob.text 1 (disk [(c! "x.proto", other)] []) ≠ abJob.text 1 (disk [(c! "x.proto", plain)] []) := by
  have hm : SameMeaning plain fancy := ⟨file, file, plain_file, fancy_file, rfl, rfl, rfl⟩
  refine ⟨hm, by decide +kernel, fun n => (C122_text fun p => ?_).2.2, by decide +kernel, by decide +kernel⟩
  dsimp only [disk]
  simp only [List.lookup_cons, List.lookup_nil]
  cases hp : (p == c! "x.proto") with
  | true => exact Or.inr ⟨plain, fancy, rfl, rfl, hm⟩
  | false => exact Or.inl rfl

end MeaningExample

end QP.Pbrs
