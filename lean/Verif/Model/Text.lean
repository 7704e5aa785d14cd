import Verif.Model.Expr

/-!
# Reading text with a parsing expression grammar

The parts of the `pest` crate (2.5, not part of /repo) that the grammars in `src/DataReader/grammars/` rest on:
ordered choice, repetition, implicit whitespace, and its Pratt parser for infix operators.  A rule is a function
from the remaining text to what it matched and the text after it, or `none` if it does not match.
-/

namespace Reveaal.Text

/-- The text of a file or query, character by character (input of parse_edge.rs:77, parse_queries.rs:233) -/
abbrev Chars := List Char

/-- What a grammar rule matched, and the text after it
(pest, used at parse_edge.rs:78, parse_queries.rs:234) -/
abbrev Rule (α : Type) := Chars → Option (α × Chars)

/-- edge_grammar.pest:57, query_grammar.pest:103 `WHITESPACE`, skipped between the parts of a rule -/
def skip : Chars → Chars
  | ' ' :: r => skip r
  | '\n' :: r => skip r
  | '\t' :: r => skip r
  | '\r' :: '\n' :: r => skip r
  | r => r

/-- A literal text (pest, e.g. edge_grammar.pest:30) -/
def lit : Chars → Chars → Option Chars
  | [], cs => some cs
  | _ :: _, [] => none
  | c :: l, d :: cs => if c = d then lit l cs else none

/-- `ASCII_ALPHANUMERIC | "_"` (edge_grammar.pest:48, query_grammar.pest:82) -/
def isWord (c : Char) : Bool := c.isAlphanum || c == '_'

/-- edge_grammar.pest:48 `variable`: `ASCII_ALPHA ~ (ASCII_ALPHANUMERIC | "_")*` -/
def word : Rule Chars
  | [] => none
  | c :: cs => if c.isAlpha then some (c :: cs.takeWhile isWord, cs.dropWhile isWord) else none

/-- edge_grammar.pest:55, query_grammar.pest:86 `int`: `"0" | ASCII_NONZERO_DIGIT ~ ASCII_DIGIT*` -/
def digits : Rule Chars
  | [] => none
  | c :: cs =>
    if c = '0' then some (['0'], cs)
    else if c.isDigit then some (c :: cs.takeWhile Char.isDigit, cs.dropWhile Char.isDigit)
    else none

/-- `str::parse::<i32>().unwrap()` of the text of an `int`, which has only digits
(parse_edge.rs:171, parse_queries.rs:54) -/
def readInt (ds : Chars) : Res Int :=
  if Nat.ofDigitChars 10 ds 0 ≤ 2147483647 then .ok (Nat.ofDigitChars 10 ds 0 : Nat)
  else .error (.panic "called `Result::unwrap()` on an `Err` value: ParseIntError { kind: PosOverflow }")

/-- `i32::to_string` (arith_expression.rs:58-79) -/
def showInt : Int → Chars
  | .ofNat n => Nat.toDigits 10 n
  | .negSucc n => '-' :: Nat.toDigits 10 (n + 1)

/-- The repetition `(op ~ term)*`.  `pest` may also skip whitespace after the last term; every rule that can follow
skips it too.  Each round reads a character, so the length of the text is enough fuel.
(pest, e.g. edge_grammar.pest:12) -/
def many {ω τ : Type} (op : Rule ω) (term : Rule τ) : Nat → Chars → List (ω × τ) × Chars
  | 0, cs => ([], cs)
  | n + 1, cs =>
    match op (skip cs) with
    | none => ([], cs)
    | some (o, r) =>
      match term (skip r) with
      | none => ([], cs)
      | some (t, r') => ((o, t) :: (many op term n r').1, (many op term n r').2)

/-- Ordered choice between literal operators (pest, e.g. edge_grammar.pest:33, 40) -/
def oneOf {ω : Type} : List (Chars × ω) → Rule ω
  | [], _ => none
  | (l, o) :: rest, cs =>
    match lit l cs with
    | some r => some (o, r)
    | none => oneOf rest cs

/-- `pest::pratt_parser::PrattParser`, for left associative infix operators only: `expr(rbp)` after its first operand
has been read.  `prec` is the binding strength, `mk` the closure given to `map_infix`.
(pest, used at parse_edge.rs:21, parse_queries.rs:17) -/
def pratt {α ω : Type} (prec : ω → Nat) (mk : α → ω → α → α) : Nat → Nat → α → List (ω × α) → α × List (ω × α)
  | 0, _, lhs, rest => (lhs, rest)
  | _ + 1, _, lhs, [] => (lhs, [])
  | n + 1, rbp, lhs, (op, x) :: rest =>
    if rbp < prec op then
      pratt prec mk n rbp (mk lhs op (pratt prec mk n (prec op) x rest).1) (pratt prec mk n (prec op) x rest).2
    else (lhs, (op, x) :: rest)

/-- `PrattParser::parse` on an operand followed by operators and operands
(pest, used at parse_edge.rs:21, parse_queries.rs:17) -/
def prattParse {α ω : Type} (prec : ω → Nat) (mk : α → ω → α → α) (first : α) (rest : List (ω × α)) : α :=
  (pratt prec mk (rest.length + 1) 0 first rest).1

end Reveaal.Text
