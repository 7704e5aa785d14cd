import Verif.Model.Text
import Verif.Model.System

/-!
# Guards and updates as text

Models `src/DataReader/grammars/edge_grammar.pest`, `src/DataReader/parse_edge.rs` and the `encode_expr` functions of
`src/ModelObjects/Expressions/`.  `pest` builds a tree first and `parse_edge.rs` turns it into an expression, where it may
panic; here both are done together, and a panic is kept inside the result until the whole text has been read.
-/

namespace Reveaal
open Text

/-- The infix operators of `arith_op`, edge_grammar.pest:33-38 -/
inductive AOp where
  | add | sub | mul | div | mod
deriving DecidableEq, Repr

/-- parse_edge.rs:20-28 `PRATT`, the levels of the arithmetic operators -/
def AOp.prec : AOp → Nat
  | .add | .sub => 1
  | .mul | .div | .mod => 2

/-- parse_edge.rs:178-185 -/
def AOp.mk : AOp → Arith → Arith → Arith
  | .add => .add
  | .sub => .dif
  | .mul => .mul
  | .div => .div
  | .mod => .mod

/-- The infix operators of `bool_op`, edge_grammar.pest:29-31 -/
inductive BOp where
  | and | or
deriving DecidableEq, Repr

/-- parse_edge.rs:20-28 `PRATT`, the levels of the Boolean operators: `or` binds more tightly than `and`. -/
def BOp.prec : BOp → Nat
  | .and => 3
  | .or => 4

/-- parse_edge.rs:140-144 -/
def BOp.mk : BOp → BoolE → BoolE → BoolE
  | .and => .and
  | .or => .or

/-- The operators of `compare_op`, edge_grammar.pest:40-45 -/
inductive COp where
  | geq | leq | eq | lt | gt
deriving DecidableEq, Repr

/-- parse_edge.rs:157-164 -/
def COp.mk : COp → Arith → Arith → BoolE
  | .eq => .eq
  | .lt => .lt
  | .leq => .le
  | .gt => .gt
  | .geq => .ge

/-- edge_grammar.pest:33 `arith_op` -/
def arithOp : Rule AOp := oneOf [(['+'], .add), (['-'], .sub), (['*'], .mul), (['/'], .div), (['%'], .mod)]

/-- edge_grammar.pest:29 `bool_op` -/
def boolOp : Rule BOp := oneOf [(['&', '&'], .and), (['|', '|'], .or)]

/-- edge_grammar.pest:40 `compare_op` -/
def compareOp : Rule COp :=
  oneOf [(['>', '='], .geq), (['<', '='], .leq), (['=', '='], .eq), (['<'], .lt), (['>'], .gt)]

/-- An infix operator applied to operands whose construction may have panicked
(parse_edge.rs:131-188 `map_infix`) -/
def lift2 {α β : Type} (f : α → α → β) (l r : Res α) : Res β := do .ok (f (← l) (← r))

/-- edge_grammar.pest:50 `term` and parse_edge.rs:171-172 -/
def atomRule : Rule (Res Arith) := fun cs =>
  match digits cs with
  | some (ds, r) => some (do .ok (.int (← readInt ds)), r)
  | none =>
    match word cs with
    | some (w, r) => some (.ok (.var (String.ofList w)), r)
    | none => none

/-- A rule in parentheses (edge_grammar.pest:19, 26) -/
def parens {α : Type} (rule : Rule α) : Rule α := fun cs => do
  let r ← lit ['('] cs
  let (e, r) ← rule (skip r)
  let r ← lit [')'] (skip r)
  some (e, r)

/-- Ordered choice (edge_grammar.pest:15, 24, 50) -/
def orElse {α : Type} (a b : Rule α) : Rule α := fun cs =>
  match a cs with
  | some x => some x
  | none => b cs

/-- `term ~ (op ~ term)*` handed to the Pratt parser (edge_grammar.pest:12, 22) -/
def infixRule {α ω : Type} (op : Rule ω) (prec : ω → Nat) (mk : ω → α → α → α) (term : Rule (Res α)) : Rule (Res α) :=
  fun cs => do
    let (t, r) ← term cs
    some (prattParse prec (fun l o x => lift2 (mk o) l x) t (many op term r.length r).1, (many op term r.length r).2)

/-- edge_grammar.pest:22-26 `arithExpr` and parse_edge.rs:167-188 `parse_arith_expr`.  The fuel bounds the nesting of
parentheses, which the length of the text does too. -/
def arithRule : Nat → Rule (Res Arith)
  | 0 => fun _ => none
  | n + 1 => infixRule arithOp AOp.prec AOp.mk (orElse (parens (arithRule n)) atomRule)

/-- edge_grammar.pest:17 `comparison` and parse_edge.rs:148-165 `parse_comparison` -/
def comparisonRule : Rule (Res BoolE) := fun cs => do
  let (l, r) ← arithRule (cs.length + 1) cs
  let (o, r) ← compareOp (skip r)
  let r := skip r
  let (x, r) ← arithRule (r.length + 1) r
  some (lift2 o.mk l x, r)

/-- edge_grammar.pest:51-53 `bool` -/
def boolRule : Rule (Res BoolE) := fun cs =>
  match lit ['t', 'r', 'u', 'e'] cs with
  | some r => some (.ok (.bool true), r)
  | none =>
    match lit ['f', 'a', 'l', 's', 'e'] cs with
    | some r => some (.ok (.bool false), r)
    | none => none

/-- edge_grammar.pest:12-19 `boolExpr` and parse_edge.rs:131-146 `parse_bool_expr` -/
def boolExprRule : Nat → Rule (Res BoolE)
  | 0 => fun _ => none
  | n + 1 => infixRule boolOp BOp.prec BOp.mk (orElse comparisonRule (orElse boolRule (parens (boolExprRule n))))

/-- An optional literal (edge_grammar.pest:1, 6) -/
def optLit (l : Chars) (cs : Chars) : Chars := (lit l cs).getD cs

/-- edge_grammar.pest:1 `guard`: `SOI ~ boolExpr? ~ ";"? ~ EOI`.  The inner option is the optional expression. -/
def guardRule (cs : Chars) : Option (Option (Res BoolE)) :=
  let start := skip cs
  match boolExprRule (start.length + 1) start with
  | some (e, r) => if skip (optLit [';'] (skip r)) = [] then some (some e) else none
  | none => if skip (optLit [';'] start) = [] then some none else none

/-- parse_edge.rs:75-92 `parse_guard`.  If there is no expression then the first inner pair of the guard is the one of
`EOI`, which `parse_bool_expr` hands to the Pratt parser without operands. -/
def parseGuard (cs : Chars) : Res BoolE :=
  match guardRule cs with
  | none => .error (.err "Could not parse as rule")
  | some none => .error (.panic "Pratt parsing expects non-empty Pairs")
  | some (some e) => e

/-- edge_grammar.pest:9 `assignment` and parse_edge.rs:118-129 `parse_update`; `expect` on the simplified expression -/
def assignmentRule : Rule (Res Update) := fun cs => do
  let (w, r) ← word cs
  let (_, r) ← oneOf [(['='], ()), ([':', '='], ())] (skip r)
  let r := skip r
  let (e, r) ← arithRule (r.length + 1) r
  some (do
    let e ← e
    match e.simplify with
    | .ok e => .ok ⟨String.ofList w, e⟩
    | .error (.err m) => .error (.panic ("Error simplifying update: " ++ m))
    | .error f => .error f, r)

/-- edge_grammar.pest:3-6 `update`: `SOI ~ assignments? ~ EOI` -/
def updateRule (cs : Chars) : Option (List (Res Update)) :=
  let start := skip cs
  match assignmentRule start with
  | some (u, r) =>
    let (us, r) := many (oneOf [([','], ())]) assignmentRule r.length r
    if skip (optLit [','] (skip r)) = [] then some (u :: us.map (·.2)) else none
  | none => if start = [] then some [] else none

/-- parse_edge.rs:94-115 `parse_updates` -/
def parseUpdates (cs : Chars) : Res (List Update) :=
  match updateRule cs with
  | none => .error (.err "Could not parse as rule")
  | some us => us.mapM id

/-- arith_expression.rs:58-79 `encode_expr` -/
def Arith.encode : Arith → Chars
  | .dif l r => l.encode ++ ['-'] ++ r.encode
  | .add l r => l.encode ++ ['+'] ++ r.encode
  | .mul l r => l.encode ++ ['*'] ++ r.encode
  | .div l r => l.encode ++ ['/'] ++ r.encode
  | .mod l r => l.encode ++ ['%'] ++ r.encode
  | .clock _ => ['?', '?']
  | .var n => n.toList
  | .int c => showInt c

/-- bool_expression.rs:63-94 `encode_expr` -/
def BoolE.encode : BoolE → Chars
  | .and l r => l.encode ++ [' ', '&', '&', ' '] ++ r.encode
  | .or l r => l.encode ++ [' ', '|', '|', ' '] ++ r.encode
  | .le l r => l.encode ++ ['<', '='] ++ r.encode
  | .ge l r => l.encode ++ ['>', '='] ++ r.encode
  | .lt l r => l.encode ++ ['<'] ++ r.encode
  | .gt l r => l.encode ++ ['>'] ++ r.encode
  | .eq l r => l.encode ++ ['=', '='] ++ r.encode
  | .bool true => ['t', 'r', 'u', 'e']
  | .bool false => ['f', 'a', 'l', 's', 'e']

/-- serialization.rs:368-390 `encode_opt_boolexpr` -/
def encodeGuard : Option BoolE → Chars
  | none => []
  | some g => g.encode

/-- serialization.rs:231-245 `decode_guard` -/
def decodeGuard (cs : Chars) : Res (Option BoolE) :=
  if cs = [] then .ok none else do .ok (some (← parseGuard cs))

/-- serialization.rs:402-426 `encode_opt_updates` -/
def encodeUpdates : Option (List Update) → Chars
  | none => []
  | some us => List.flatten (List.intersperse [',', ' '] (us.map fun u => u.var.toList ++ ['='] ++ u.expr.encode))

/-- serialization.rs:247-260 `decode_update` -/
def decodeUpdates (cs : Chars) : Res (Option (List Update)) :=
  if cs = [] then .ok none else do .ok (some (← parseUpdates cs))

end Reveaal
