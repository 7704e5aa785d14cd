import Verif.Model.EdgeText
import Verif.Model.Recipe
import Verif.Model.StateQuery

/-!
# Queries as text

Models `src/DataReader/grammars/query_grammar.pest`, `src/DataReader/parse_queries.rs` and the `Display` instances of
`src/ModelObjects/Expressions/query_expression.rs` and `state_expression.rs`.
-/

namespace Reveaal
open Text

/-! ## Expressions -/

/-- query_expression.rs:23-27 `struct SaveExpression` -/
structure SaveExpr where
  system : SysExpr
  name : Option String
deriving DecidableEq, Repr

/-- query_expression.rs:5-21 `enum QueryExpression` -/
inductive QueryExpr where
  | refinement (l r : SysExpr)
  | consistency (s : SysExpr)
  | reachability (s : SysExpr) (start : Option StateExpr) (goal : StateExpr)
  | implementation (s : SysExpr)
  | determinism (s : SysExpr)
  | specification (s : SysExpr)
  | getComponent (s : SaveExpr)
  | prune (s : SaveExpr)
  | bisimMinim (s : SaveExpr)

/-! ## Printing -/

/-- query_expression.rs:38-59 `Display for SystemExpression` -/
def SysExpr.print : SysExpr → Chars
  | .component name (some id) => name.toList ++ '[' :: (id.toList ++ [']'])
  | .component name none => name.toList
  | .quotient l r => '(' :: (l.print ++ ([' ', '\\', '\\', ' '] ++ (r.print ++ [')'])))
  | .composition l r => '(' :: (l.print ++ ([' ', '|', '|', ' '] ++ (r.print ++ [')'])))
  | .conjunction l r => '(' :: (l.print ++ ([' ', '&', '&', ' '] ++ (r.print ++ [')'])))

/-- query_expression.rs:61-68 `Display for SaveExpression` -/
def SaveExpr.print (s : SaveExpr) : Chars :=
  match s.name with
  | some name => name.toList ++ (" save-as ".toList ++ s.system.print)
  | none => s.system.print

/-- state_expression.rs:36-43 `Display for ComponentVariable` -/
def CompVar.print (v : CompVar) : Chars :=
  (SysExpr.component v.component v.specialId).print ++ '.' :: v.name.toList

/-- state_expression.rs:82-93 `Display for OperandExpression` -/
def Operand.print : Operand → Chars
  | .number n => showInt n
  | .clock v => v.print
  | .difference l r => l.print ++ ([' ', '-', ' '] ++ r.print)
  | .sum l r => l.print ++ ([' ', '+', ' '] ++ r.print)

/-- The comparisons of state_expression.rs:155-159 -/
def Cmp.print : Cmp → Chars
  | .leq => ['<', '=']
  | .geq => ['>', '=']
  | .eq => ['=', '=']
  | .lt => ['<']
  | .gt => ['>']

mutual
/-- state_expression.rs:152-187 `Display for StateExpression` -/
def StateExpr.print : StateExpr → Chars
  | .cmp op l r => l.print ++ (' ' :: (op.print ++ (' ' :: r.print)))
  | .and es => '(' :: (StateExpr.printAll [' ', '&', '&', ' '] es ++ [')'])
  | .or es => '(' :: (StateExpr.printAll [' ', '|', '|', ' '] es ++ [')'])
  | .location v => v.print
  | .not e => ['!', '('] ++ (e.print ++ [')'])
  | .bool b => if b then "true".toList else "false".toList
/-- The loops of state_expression.rs:162-168 and 173-179 -/
def StateExpr.printAll (sep : Chars) : List StateExpr → Chars
  | [] => []
  | [e] => e.print
  | e :: e' :: es => e.print ++ (sep ++ StateExpr.printAll sep (e' :: es))
end

/-- query_expression.rs:81-84, the start of a reachability query -/
def startText : Option StateExpr → Chars
  | some e => e.print
  | none => "init".toList

/-- query_expression.rs:70-114 `Display for QueryExpression` -/
def QueryExpr.print : QueryExpr → Chars
  | .refinement l r => "refinement:".toList ++ ' ' :: (l.print ++ ([' ', '<', '=', ' '] ++ r.print))
  | .reachability s start goal =>
    "reachability:".toList ++ ' ' :: (s.print ++ ([' ', '@', ' '] ++
      (startText start ++ ([' ', '-', '>', ' '] ++ goal.print))))
  | .consistency s => "consistency:".toList ++ ' ' :: s.print
  | .getComponent s => "get-component:".toList ++ ' ' :: s.print
  | .prune s => "prune:".toList ++ ' ' :: s.print
  | .bisimMinim s => "bisim-minim:".toList ++ ' ' :: s.print
  | .implementation s => "implementation:".toList ++ ' ' :: s.print
  | .determinism s => "determinism:".toList ++ ' ' :: s.print
  | .specification s => "specification:".toList ++ ' ' :: s.print

/-! ## Reading system expressions -/

/-- query_grammar.pest:84 `variable_name`: a word that is not followed by `-` -/
def nameRule : Rule Chars := fun cs =>
  match word cs with
  | some (w, '-' :: r) => let _ := (w, r); none
  | x => x

/-- query_grammar.pest:86 `identifier`: one or more characters other than brackets -/
def identifierRule : Rule Chars := fun cs =>
  match cs.takeWhile fun c => c != '[' && c != ']' with
  | [] => none
  | i => some (i, cs.dropWhile fun c => c != '[' && c != ']')

/-- The optional part `("[" ~ identifier ~ "]")?` of a component (query_grammar.pest:34) -/
def specialIdRule : Rule Chars := fun cs => do
  let r ← lit ['['] cs
  let (i, r) ← identifierRule (skip r)
  let r ← lit [']'] (skip r)
  some (i, r)

/-- query_grammar.pest:36 `component`, with the name and the special id -/
def componentRule : Rule (String × Option String) := fun cs => do
  let (w, r) ← nameRule cs
  match specialIdRule (skip r) with
  | some (i, r) => some ((String.ofList w, some (String.ofList i)), r)
  | none => some ((String.ofList w, none), r)

/-- The infix operators of system expressions, query_grammar.pest:98-101 -/
inductive FOp where
  | quotient | conjunction | composition
deriving DecidableEq, Repr

/-- query_grammar.pest:98-101 `featureOperator` -/
def featureOp : Rule FOp :=
  oneOf [(['/', '/'], .quotient), (['\\', '\\'], .quotient), (['&', '&'], .conjunction), (['|', '|'], .composition)]

/-- parse_queries.rs:16-21 `PRATT` -/
def FOp.prec : FOp → Nat
  | .quotient => 1
  | .composition => 2
  | .conjunction => 3

/-- parse_queries.rs:39-47 -/
def FOp.mk : FOp → SysExpr → SysExpr → SysExpr
  | .quotient => .quotient
  | .composition => .composition
  | .conjunction => .conjunction

/-- parse_queries.rs:29-36 -/
def componentTerm : Rule (Res SysExpr) := fun cs => do
  let ((name, id), r) ← componentRule cs
  some (.ok (.component name id), r)

/-- query_grammar.pest:30 `expr` and parse_queries.rs:26-50 `parse_system` -/
def sysRule : Nat → Rule (Res SysExpr)
  | 0 => fun _ => none
  | n + 1 => infixRule featureOp FOp.prec FOp.mk (orElse componentTerm (parens (sysRule n)))

/-- parse_queries.rs:244-253 `parse_to_system_expr`: text after the expression is ignored. -/
def parseSystem (cs : Chars) : Res SysExpr :=
  match sysRule (cs.length + 1) cs with
  | some (e, _) => e
  | none => .error (.err "Could not parse as rule")

/-! ## Reading states -/

/-- query_grammar.pest:71 `variable` and parse_queries.rs:129-141 `comp_var_from_variable_pair` -/
def variableRule : Rule CompVar := fun cs => do
  let ((c, i), r) ← componentRule cs
  let r ← lit ['.'] (skip r)
  let (x, r) ← nameRule (skip r)
  some (⟨c, i, String.ofList x⟩, r)

/-- query_grammar.pest:69 `boolTerm` and parse_queries.rs:54-55 -/
def operandRule : Rule (Res Operand) := fun cs =>
  match digits cs with
  | some (ds, r) => some (do .ok (.number (← readInt ds)), r)
  | none =>
    match variableRule cs with
    | some (v, r) => some (.ok (.clock v), r)
    | none => none

/-- parse_queries.rs:65-73; `true` is `sub_op`. -/
def diffOf (sub : Bool) : Operand → Operand → Operand := if sub then .difference else .sum

/-- query_grammar.pest:67 `boolDiff` and parse_queries.rs:56-77 -/
def boolDiffRule : Rule (Res Operand) := fun cs => do
  let (t, r) ← operandRule cs
  let (l, r) := many (oneOf [(['-'], true), (['+'], false)]) operandRule r.length r
  some (l.foldl (fun acc p => lift2 (diffOf p.1) acc p.2) t, r)

/-- query_grammar.pest:90-96 `operator` -/
def cmpOp : Rule Cmp :=
  oneOf [(['<', '='], .leq), (['>', '='], .geq), (['<'], .lt), (['>'], .gt), (['=', '='], .eq)]

/-- The tree of pairs `pest` builds for a state, query_grammar.pest:51-65.  The operands of a comparison are already
converted. -/
inductive SPair where
  | andExpr (l : List SPair)
  | orExpr (l : List SPair)
  | notExpr (e : SPair)
  | compExpr (op : Cmp) (l r : Res Operand)
  | locExpr (v : CompVar)
  | bool (b : Bool)

/-- query_grammar.pest:61 `compExpr` -/
def compExprRule : Rule SPair := fun cs => do
  let (l, r) ← boolDiffRule cs
  let (o, r) ← cmpOp (skip r)
  let (x, r) ← boolDiffRule (skip r)
  some (.compExpr o l x, r)

/-- query_grammar.pest:59 `locExpr` -/
def locExprRule : Rule SPair := fun cs => do
  let (v, r) ← variableRule cs
  some (.locExpr v, r)

/-- query_grammar.pest:76-77 `bool_true` and `bool_false` -/
def stateBoolRule : Rule SPair := fun cs => do
  let (b, r) ← oneOf [("true".toList, true), ("false".toList, false)] cs
  some (.bool b, r)

/-- query_grammar.pest:63 `notExpr` -/
def notRule (rule : Rule SPair) : Rule SPair := fun cs => do
  let (_, r) ← oneOf [("not".toList, ()), (['!'], ())] cs
  let (e, r) ← rule (skip r)
  some (.notExpr e, r)

/-- `term ~ (op ~ term)*`, with the operators left out (query_grammar.pest:53, 55, 67) -/
def listRule (op : Rule Unit) (mk : List SPair → SPair) (term : Rule SPair) : Rule SPair := fun cs => do
  let (t, r) ← term cs
  let (l, r) := many op term r.length r
  some (mk (t :: l.map (·.2)), r)

/-- query_grammar.pest:51-65 `boolExpr`: `andExpr`, `orExpr` and `subExpr` -/
def boolStateRule : Nat → Rule SPair
  | 0 => fun _ => none
  | n + 1 =>
    listRule (oneOf [(['&', '&'], ()), ("and".toList, ())]) .andExpr
      (listRule (oneOf [(['|', '|'], ()), ("or".toList, ())]) .orExpr
        (orElse (parens (boolStateRule n)) (orElse (notRule (boolStateRule n))
          (orElse compExprRule (orElse locExprRule stateBoolRule)))))

mutual
/-- parse_queries.rs:82-127 `parse_state` on this pair: the Pratt parser is run on the inner pairs. -/
def SPair.parse : SPair → Res StateExpr
  | .andExpr l => SPair.parseInner l
  | .orExpr l => SPair.parseInner l
  | .notExpr e => e.primary
  | .compExpr _ _ _ => .error (.panic "internal error: entered unreachable code: Unexpected rule: boolDiff")
  | .locExpr _ => .error (.panic "internal error: entered unreachable code: Unexpected rule: variable")
  | .bool _ => .error (.panic "Pratt parsing expects non-empty Pairs")
/-- `PrattParser::parse` on a list of pairs none of which is an operator: the second pair is not expected.
(parse_queries.rs:82-128) -/
def SPair.parseInner : List SPair → Res StateExpr
  | [] => .error (.panic "Pratt parsing expects non-empty Pairs")
  | [e] => e.primary
  | e :: _ :: _ => do
    let _ ← e.primary
    .error (.panic "Expected postfix or infix expression")
/-- parse_queries.rs:84-125 the closure given to `map_primary` -/
def SPair.primary : SPair → Res StateExpr
  | .andExpr l => SPair.primaryList .and l
  | .orExpr l => SPair.primaryList .or l
  | .notExpr e => do .ok (.not (← e.parse))
  | .compExpr op l r => do .ok (.cmp op (← l) (← r))
  | .locExpr v => .ok (.location v)
  | .bool b => .ok (.bool b)
/-- parse_queries.rs:85-97 -/
def SPair.primaryList (mk : List StateExpr → StateExpr) : List SPair → Res StateExpr
  | [] => .ok (mk [])
  | [e] => e.parse
  | e :: e' :: l => do
    let x ← e.parse
    let xs ← SPair.parseAll (e' :: l)
    .ok (mk (x :: xs))
/-- `inner.map(parse_state).collect()` (parse_queries.rs:95-96) -/
def SPair.parseAll : List SPair → Res (List StateExpr)
  | [] => .ok []
  | e :: l => do
    let x ← e.parse
    let xs ← SPair.parseAll l
    .ok (x :: xs)
end

/-- query_grammar.pest:47 `state` and `parse_state` on it: the only inner pair is the `andExpr`. -/
def stateRule : Rule (Res StateExpr) := fun cs => do
  let (p, r) ← boolStateRule (cs.length + 1) cs
  some (p.primary, r)

/-! ## Reading queries -/

/-- A keyword followed by one system: query_grammar.pest:10, 14, 22, 24 -/
def sysQueryRule (keyword : String) (mk : SysExpr → QueryExpr) : Rule (Res QueryExpr) := fun cs => do
  let r ← lit keyword.toList cs
  let (s, r) ← sysRule (r.length + 1) (skip r)
  some (do .ok (mk (← s)), r)

/-- A keyword followed by `saveExpr`, query_grammar.pest:16-28 -/
def saveQueryRule (keyword : String) (mk : SaveExpr → QueryExpr) : Rule (Res QueryExpr) := fun cs => do
  let r ← lit keyword.toList cs
  let (s, r) ← sysRule (r.length + 1) (skip r)
  match (do
      let r ← lit "save-as".toList (skip r)
      nameRule (skip r)) with
  | some (w, r) => some (do .ok (mk ⟨← s, some (String.ofList w)⟩), r)
  | none => some (do .ok (mk ⟨← s, none⟩), r)

/-- query_grammar.pest:8 `refinement` and parse_queries.rs:147-152 -/
def refinementRule : Rule (Res QueryExpr) := fun cs => do
  let r ← lit "refinement:".toList cs
  let (a, r) ← sysRule (r.length + 1) (skip r)
  let r ← lit ['<', '='] (skip r)
  let (b, r) ← sysRule (r.length + 1) (skip r)
  some (do
    let a ← a
    let b ← b
    .ok (.refinement a b), r)

/-- `state | "init"` of query_grammar.pest:12 -/
def startRule : Rule (Option (Res StateExpr)) := fun cs =>
  match stateRule cs with
  | some (e, r) => some (some e, r)
  | none => do
    let r ← lit "init".toList cs
    some (none, r)

/-- query_grammar.pest:12 `reachability` and parse_queries.rs:158-165: the goal is converted before the start. -/
def reachabilityRule : Rule (Res QueryExpr) := fun cs => do
  let r ← lit "reachability:".toList cs
  let (s, r) ← sysRule (r.length + 1) (skip r)
  let r ← lit ['@'] (skip r)
  let (a, r) ← startRule (skip r)
  let r ← lit ['-', '>'] (skip r)
  let (b, r) ← stateRule (skip r)
  some (do
    let s ← s
    let b ← b
    match a with
    | none => .ok (.reachability s none b)
    | some a => do .ok (.reachability s (some (← a)) b), r)

/-- query_grammar.pest:5 `query` and parse_queries.rs:143-204 `parse_query` -/
def queryRule : Rule (Res QueryExpr) :=
  orElse refinementRule (orElse (sysQueryRule "consistency:" .consistency) (orElse reachabilityRule
    (orElse (sysQueryRule "implementation:" .implementation) (orElse (sysQueryRule "determinism:" .determinism)
      (orElse (sysQueryRule "specification:" .specification) (orElse (saveQueryRule "get-component:" .getComponent)
        (orElse (saveQueryRule "prune:" .prune) (saveQueryRule "bisim-minim:" .bisimMinim))))))))

/-- query_grammar.pest:1-3 `queries` and parse_queries.rs:233-242 `parse_to_expression_tree` -/
def parseQueries (cs : Chars) : Res (List QueryExpr) :=
  match queryRule (skip cs) with
  | none => .error (.err "Could not parse as rule")
  | some (q, r) =>
    let (qs, r) := many (oneOf [([';'], ())]) queryRule r.length r
    if skip r = [] then (q :: qs.map (·.2)).mapM id else .error (.err "Could not parse as rule")

end Reveaal
