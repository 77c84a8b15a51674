import Verif.Model.Pbrs.Types
/-!
# The parser combinators of `nom` 7 that `pb-rs/src/parser.rs` uses (lines 10-20)

`nom` is not in the repository; this is its documented behaviour on `&str`, "complete" versions. Only recoverable errors
(`Err::Error`) occur, so an error is `err`. A third outcome is a panic of the closures in `parser.rs`.
-/

namespace QP.Pbrs

open Lean in
/-- `c! "abc"` is `['a', 'b', 'c']`. -/
macro "c! " s:str : term => do
  let cs := s.getString.toList.toArray.map fun c => Syntax.mkCharLit c
  `(([$cs,*] : Str))

/-- `IResult<&str, α>`: the value and the remaining input, or an error; or a panic. -/
inductive Res (α : Type) where
  | ok (a : α) (rest : Str)
  | err
  | panic
deriving DecidableEq

abbrev Parser (α : Type) := Str → Res α

namespace Nom

/-- Run a parser, then another on the rest. -/
def andThen {α β : Type} (p : Parser α) (q : α → Parser β) : Parser β := fun s =>
  match p s with
  | .ok a r => q a r
  | .err => .err
  | .panic => .panic

/-- A parser that consumes nothing. -/
def give {α : Type} (a : α) : Parser α := fun s => .ok a s

/-- `combinator::map`. -/
def map {α β : Type} (p : Parser α) (g : α → β) : Parser β := andThen p fun a => give (g a)

/-- `combinator::map_res`; the closure may also panic. -/
def mapRes {α β : Type} (p : Parser α) (g : α → Res β) : Parser β := andThen p fun a s =>
  match g a with
  | .ok b _ => .ok b s
  | .err => .err
  | .panic => .panic

/-- `combinator::value`. -/
def value {α β : Type} (b : β) (p : Parser α) : Parser β := map p fun _ => b

/-- `bytes::complete::tag`. -/
def tok (k : Str) : Parser Str := fun s => if k.isPrefixOf s then .ok k (s.drop k.length) else .err

/-- The text before the first occurrence of `pat`, and the rest, which starts with it. -/
def splitAt? (pat : Str) : Str → Option (Str × Str)
  | [] => if pat.isEmpty then some ([], []) else none
  | c :: cs =>
    if pat.isPrefixOf (c :: cs) then some ([], c :: cs)
    else (splitAt? pat cs).map fun p => (c :: p.1, p.2)

/-- `bytes::complete::take_until`. -/
def takeUntil (pat : Str) : Parser Str := fun s =>
  match splitAt? pat s with
  | some (a, r) => .ok a r
  | none => .err

/-- `alpha1`, `alphanumeric1`, `digit1`, `hex_digit1`, `multispace1`: one or more characters of a kind. -/
def takeWhile1 (ok : Char → Bool) : Parser Str := fun s =>
  if (s.takeWhile ok).isEmpty then .err else .ok (s.takeWhile ok) (s.dropWhile ok)

/-- `character::complete::not_line_ending`: up to the line end; a `\r` without `\n` is an error. -/
def notLineEnding : Parser Str := fun s =>
  match s.dropWhile (fun c => c != '\r' && c != '\n') with
  | '\r' :: '\n' :: r => .ok (s.takeWhile (fun c => c != '\r' && c != '\n')) ('\r' :: '\n' :: r)
  | '\r' :: _ => .err
  | r => .ok (s.takeWhile (fun c => c != '\r' && c != '\n')) r

/-- `character::complete::anychar`. -/
def anychar : Parser Char := fun s =>
  match s with
  | c :: r => .ok c r
  | [] => .err

/-- `branch::alt`. -/
def alt {α : Type} : List (Parser α) → Parser α
  | [] => fun _ => .err
  | p :: ps => fun s =>
    match p s with
    | .ok a r => .ok a r
    | .panic => .panic
    | .err => alt ps s

/-- `combinator::opt`. -/
def opt {α : Type} (p : Parser α) : Parser (Option α) := fun s =>
  match p s with
  | .ok a r => .ok (some a) r
  | .panic => .panic
  | .err => .ok none s

/-- `combinator::recognize`: the consumed input. -/
def recognize {α : Type} (p : Parser α) : Parser Str := fun s =>
  match p s with
  | .ok _ r => .ok (s.take (s.length - r.length)) r
  | .err => .err
  | .panic => .panic

/-- `combinator::verify`. -/
def verify {α : Type} (p : Parser α) (ok : α → Bool) : Parser α := fun s =>
  match p s with
  | .ok a r => if ok a then .ok a r else .err
  | .err => .err
  | .panic => .panic

/-- `sequence::pair`, `tuple`. -/
def pair {α β : Type} (p : Parser α) (q : Parser β) : Parser (α × β) := andThen p fun a => map q fun b => (a, b)

/-- `sequence::preceded`. -/
def preceded {α β : Type} (p : Parser α) (q : Parser β) : Parser β := andThen p fun _ => q

/-- `sequence::terminated`. -/
def terminated {α β : Type} (p : Parser α) (q : Parser β) : Parser α := andThen p fun a => map q fun _ => a

/-- `sequence::delimited`. -/
def delimited {α β γ : Type} (p : Parser α) (q : Parser β) (r : Parser γ) : Parser β := preceded p (terminated q r)

/-- `sequence::separated_pair`. -/
def separatedPair {α β γ : Type} (p : Parser α) (sep : Parser β) (q : Parser γ) : Parser (α × γ) :=
  pair p (preceded sep q)

/-- The loop of `many0` (at most `n` rounds; each round consumes something, so the length of the input plus one suffices,
see `many0_eq`). `nom` fails if the rest is as long as the input; it is never longer. -/
def many0N {α : Type} (p : Parser α) : Nat → Parser (List α)
  | 0 => fun _ => .err
  | n + 1 => fun s =>
    match p s with
    | .err => .ok [] s
    | .panic => .panic
    | .ok a r =>
      if r.length < s.length then
        match many0N p n r with
        | .ok as r' => .ok (a :: as) r'
        | .err => .err
        | .panic => .panic
      else .err

/-- `multi::many0`. -/
def many0 {α : Type} (p : Parser α) : Parser (List α) := fun s => many0N p (s.length + 1) s

/-- `multi::many1`. -/
def many1 {α : Type} (p : Parser α) : Parser (List α) := fun s =>
  match p s with
  | .ok a r =>
    match many0 p r with
    | .ok as r' => .ok (a :: as) r'
    | .err => .err
    | .panic => .panic
  | .err => .err
  | .panic => .panic

/-- The loop of `separated_list0` and `separated_list1` after the first element (at most `n` rounds). -/
def separatedN {α β : Type} (sep : Parser β) (p : Parser α) : Nat → Parser (List α)
  | 0 => fun _ => .err
  | n + 1 => fun s =>
    match sep s with
    | .err => .ok [] s
    | .panic => .panic
    | .ok _ r =>
      if r.length < s.length then
        match p r with
        | .err => .ok [] s
        | .panic => .panic
        | .ok a r' =>
          match separatedN sep p n r' with
          | .ok as r'' => .ok (a :: as) r''
          | .err => .err
          | .panic => .panic
      else .err

/-- `multi::separated_list1`. -/
def separatedList1 {α β : Type} (sep : Parser β) (p : Parser α) : Parser (List α) :=
  andThen p fun a s => map (separatedN sep p (s.length + 1)) (fun as => a :: as) s

/-- `multi::separated_list0`. -/
def separatedList0 {α β : Type} (sep : Parser β) (p : Parser α) : Parser (List α) := fun s =>
  match p s with
  | .err => .ok [] s
  | .panic => .panic
  | .ok a r => map (separatedN sep p (r.length + 1)) (fun as => a :: as) r

end Nom

end QP.Pbrs
