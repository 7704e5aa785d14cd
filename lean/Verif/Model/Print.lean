import Verif.Model.Respond

/-!
# What the command line tool prints

Models the texts of failures (`src/System/query_failures.rs`) and of states (`src/System/specifics.rs`), `print_result` with the
failures and paths it prints (`src/System/executable_query.rs`), and the end of a run (`src/main.rs`).  A text is the list of
its characters; `println!` adds a line feed.
-/

namespace Reveaal
open Text

/-! ## States -/

/-- query_failures.rs:23-35 `operator` -/
def SysType.operator : SysType → Res Chars
  | .quotient => .ok ['\\', '\\']
  | .refinement => .ok ['<', '=']
  | .composition => .ok ['|', '|']
  | .conjunction => .ok ['&', '&']
  | .simple => .error (.panic "internal error: entered unreachable code")

/-- specifics.rs:282-289 `Display for SpecialLocation` -/
def SpecialLoc.text : SpecialLoc → Chars
  | .universal => "[Universal]".toList
  | .error => "[Error]".toList

/-- specifics.rs:261-273 `Display for SpecificLocation`; the number of the component instance is not shown. -/
def SpecificLoc.text : SpecificLoc → Res Chars
  | .component c l => .ok (c.name.toList ++ '.' :: l.toList)
  | .branch l r op => do
    let a ← l.text
    let o ← op.operator
    let b ← r.text
    .ok ('(' :: (a ++ (o ++ (b ++ [')']))))
  | .special k => .ok k.text

/-- specifics.rs:324-332 `Display for SpecificState`; the clock constraints are not shown. -/
def SpecificState.text (x : SpecificState) : Res Chars := do
  .ok ('(' :: ((← x.locations.text) ++ [')']))

/-! ## Actions -/

/-- query_failures.rs:121-129 `Display for Action` -/
def actionText (isInput : Bool) (name : String) : Chars :=
  (if isInput then "Input \"".toList else "Output \"".toList) ++ (name.toList ++ ['"'])

/-- How a text is shown with `{:?}`: in quotation marks, and every character as `esc` shows it (std, `char::escape_debug`, used at
query_failures.rs:106) -/
def debugText (esc : Char → Chars) (s : String) : Chars := '"' :: (s.toList.flatMap esc ++ ['"'])

/-- The elements of a set that is shown with `{:?}`, with commas between them (std, used at query_failures.rs:106) -/
def debugItems (esc : Char → Chars) : List String → Chars
  | [] => []
  | [a] => debugText esc a
  | a :: b :: l => debugText esc a ++ (',' :: ' ' :: debugItems esc (b :: l))

/-- query_failures.rs:99-109 `Display for ActionSet`; `ord` is the iteration order of the hash set. -/
def ActionSet.text (esc : Char → Chars) (ord : List String → List String) (x : ActionSet) : Chars :=
  (if x.isInput then "Input".toList else "Output".toList) ++ (" set {".toList ++ (debugItems esc (ord x.actions) ++
    ("} in system '".toList ++ (x.system.toList ++ ['\'']))))

/-- query_failures.rs:598-609 `Display for ActionFailure` -/
def ActionFailure.text (esc : Char → Chars) (ord : List String → List String) (x : ActionFailure) : Chars :=
  x.left.text esc ord ++ ((if x.subset then " are not a subset of ".toList else " are not disjoint from ".toList) ++
    x.right.text esc ord)

/-! ## Failures -/

/-- query_failures.rs:524-532 `Display for DeterminismFailure` -/
def DetReport.text (x : DetReport) : Res Chars := do
  let st ← x.state.text
  .ok ("The system '".toList ++ (x.system.toList ++ ("' is not deterministic in state ".toList ++ (st ++
    (" for ".toList ++ actionText x.isInput x.action)))))

/-- query_failures.rs:560-577 `Display for ConsistencyFailure` -/
def ConsReport.text : ConsReport → Res Chars
  | .noInitialState system =>
    .ok ("The system '".toList ++ (system.toList ++ "' is inconsistent because it has no initial state".toList))
  | .notDeterministic f => f.text
  | .inconsistentLoc system state | .inconsistentFrom system state => do
    let st ← state.text
    .ok ("The system '".toList ++ (system.toList ++
      ("' is inconsistent because there are no saving outputs from state ".toList ++ st)))

/-- query_failures.rs:534-558 `Display for RefinementFailure` with 617-647 `Display for RefinementPrecondition` -/
def RefinementReport.text (esc : Char → Chars) (ord : List String → List String) : RefinementReport → Res Chars
  | .state system f => do
    let st ← f.state.text
    .ok ("The refinement '".toList ++ (system.toList ++
      (if f.cuts then "' fails because delay solutions are cut in state ".toList ++ (st ++ (" for ".toList ++
          actionText f.isInput f.action))
       else "' fails in state ".toList ++ (st ++ (" because ".toList ++ (actionText f.isInput f.action ++
          " cannot be matched".toList))))))
  | .emptyChild child system =>
    .ok ("The refinement '".toList ++ (system.toList ++ ("' fails because '".toList ++ (child.toList ++ "' is empty".toList))))
  | .emptyInitial system =>
    .ok ("The refinement '".toList ++ (system.toList ++ "' fails because it has no initial state".toList))
  | .inconsistentChild f system => do
    let t ← f.text
    .ok ("The refinement '".toList ++ (system.toList ++ ("' fails because of inconsistent system: ".toList ++ t)))
  | .actionMismatch f system =>
    .ok ("The refinement '".toList ++ (system.toList ++ ("' fails based on actions: ".toList ++ f.text esc ord)))

/-! ## Results -/

/-- executable_query.rs:47-49 `satisfied` -/
def satisfiedText (query : Chars) : Chars := query ++ " -- Property is satisfied\n".toList

/-- executable_query.rs:51-53 `not_satisfied` -/
def notSatisfiedText (query : Chars) : Chars := query ++ " -- Property is NOT satisfied\n".toList

/-- executable_query.rs:57-64, one step of a path -/
def SpecificDecision.text (x : SpecificDecision) : Res Chars := do
  .ok (x.action.toList ++ (" from ".toList ++ ((← x.source.text) ++ ['\n'])))

/-- executable_query.rs:55-65 `print_path` -/
def pathText (p : List SpecificDecision) : Res Chars := do
  let steps ← p.mapM SpecificDecision.text
  .ok ("Edges that have been taken:\n".toList ++ steps.flatten)

/-- executable_query.rs:14-44 `print_result` -/
def QueryReport.text (esc : Char → Chars) (ord : List String → List String) (query : Chars) : QueryReport → Res Chars
  | .refinement none | .consistency none | .determinism none => .ok (satisfiedText query)
  | .refinement (some f) => do
    let t ← f.text esc ord
    .ok (notSatisfiedText query ++ ("\nGot failure: ".toList ++ (t ++ ['\n'])))
  | .reachability (some p) => do .ok (satisfiedText query ++ (← pathText p))
  | .reachability none => .ok (notSatisfiedText query)
  | .consistency (some _) => .ok (notSatisfiedText query)
  | .determinism (some _) => .ok (notSatisfiedText query)
  | .getComponent _ => .ok (query ++ " -- Component succesfully created\n".toList)

/-- main.rs:52-55, after all queries of a run have been answered -/
def resultsText (esc : Char → Chars) (ord : List String → List String) (rs : List (QueryExpr × QueryReport)) : Res Chars := do
  let ts ← rs.mapM fun r => r.2.text esc ord r.1.print
  .ok ("\nQuery results:\n".toList ++ ts.flatten)

end Reveaal
