import Verif.Model.ClockReduction
import Verif.Model.QueryText
import Verif.Model.Refine
import Verif.Model.Reachability
import Verif.Model.SaveComponent
import Verif.Model.PruneLoop

/-!
# From a query to its answer

Models `create_executable_query` (`src/System/extract_system_rep.rs`) together with the executors of
`src/System/executable_query.rs`.  The number of clocks of the systems is only known once the components are loaded,
and clock reduction makes it smaller; in the code it is the argument `dim`, in the model `Z d` is the type of zones
over `d` clocks.
-/

namespace Reveaal
open ZoneLib

/-- The inputs of extract_system_rep.rs:42-172 and executable_query.rs:74-140 besides the query and the components: the settings, the iteration orders of hash maps and hash
sets, and the number of steps after which the model stops a search.  The code compiles the systems twice if clocks are
reduced; the two compilations may see different orders. -/
structure QueryEnv (Z : Nat → Type) where
  /-- `!get_settings().disable_clock_reduction` -/
  reduce : Bool
  /-- compilation for the clock analysis, of the left (or only) and of the right system -/
  analysed : ∀ d, CompileEnv (Z d)
  analysed' : ∀ d, CompileEnv (Z d)
  /-- the clock analysis -/
  order : HashOrder
  order' : HashOrder
  acts : ∀ d, Sys (Z d) → List String
  /-- compilation for the query -/
  compiled : ∀ d, CompileEnv (Z d)
  compiled' : ∀ d, CompileEnv (Z d)
  /-- the determinism and consistency checks -/
  checks : ∀ d, Sys (Z d) → List Bool → Orders
  checks' : ∀ d, Sys (Z d) → List Bool → Orders
  /-- the outputs and inputs the refinement check goes through -/
  outs : ∀ d, Sys (Z d) → List String
  ins : ∀ d, Sys (Z d) → List String
  /-- the actions when a component is built from a system -/
  saved : ∀ d, Sys (Z d) → ActionOrder (Z d)
  /-- `OwnedFederation::get_bounds` -/
  zoneBounds : ∀ d, Z d → Bounds
  /-- `OwnedFederation::predt` (see `Verif/Model/PruneLoop.lean`) and the order of the locations pruning compiles -/
  predt : ∀ d, Z d → Z d → Z d
  pruned : ∀ d, List (LocId × LocTree (Z d)) → List (LocId × LocTree (Z d))
  fuel : Nat

/-- query_failures.rs:138-155 `enum QueryResult`, for systems over `d` clocks -/
inductive QueryOutcome (Z : Nat → Type) where
  | refinement (d : Nat) (failure : Option (RefFailure (Z d)))
  | reachability (d : Nat) (path : Option (List (Decision (Z d))))
  | consistency (d : Nat) (failure : Option (ConsFailure (Z d)))
  | determinism (d : Nat) (failure : Option (DetFailure (Z d)))
  | getComponent (c : Component)

section
variable {Z : Nat → Type} [∀ d, ZoneLib (Z d)]

/-- extract_system_rep.rs:59-66, the two recipes of a refinement after clock reduction, if that is not disabled -/
def QueryEnv.reduceTwo (X : QueryEnv Z) (l r : Recipe) (d : Nat) (q : Option Nat) : Res (Recipe × Recipe × Nat) :=
  if X.reduce then do
    match ← clockReduce (X.analysed d) (X.analysed' d) X.order X.order' (X.acts d) l (some r) d q with
    | (l, some r, d) => .ok (l, r, d)
    | (_, none, _) => .error (.panic "unreachable")
  else .ok (l, r, d)

/-- extract_system_rep.rs:112-114, 129-131, 142-144 and 158-160, the one recipe of the other queries -/
def QueryEnv.reduceOne (X : QueryEnv Z) (r : Recipe) (d : Nat) (q : Option Nat) : Res (Recipe × Nat) :=
  if X.reduce then do
    let (r, _, d) ← clockReduce (X.analysed d) (X.analysed' d) X.order X.order' (X.acts d) r none d q
    .ok (r, d)
  else .ok (r, d)

/-- extract_system_rep.rs:112-116, 129-133, 142-146 and 158-162: the system of a query about one system, from its recipe -/
def QueryEnv.systemOf (X : QueryEnv Z) (r : Recipe) (d : Nat) (q : Option Nat) : Res (Σ d, Sys (Z d)) := do
  let (r, d) ← X.reduceOne r d q
  let (s, _) ← r.compile (X.compiled d) 0
  .ok ⟨d, s⟩

/-- extract_system_rep.rs:103-116, 121-133, 135-146 and 151-162: the system of a query about one system -/
def QueryEnv.system (X : QueryEnv Z) (load : String → Res Component) (e : SysExpr) : Res (Σ d, Sys (Z d)) := do
  let (r, d, q) ← getSystemRecipe load e 0 none
  X.systemOf r d q

/-- extract_system_rep.rs:59-73 with executable_query.rs:76-82, from the recipes on -/
def QueryEnv.refinementOf (X : QueryEnv Z) (l r : Recipe) (d : Nat) (q : Option Nat) : Res (QueryOutcome Z) := do
  let (l, r, d) ← X.reduceTwo l r d q
  let (s, i) ← l.compile (X.compiled d) 0
  let (t, _) ← r.compile (X.compiled' d) i
  let o ← checkRefinement s t (X.checks d s) (X.checks' d t) (X.outs d s) (X.ins d t) X.fuel
  .ok (.refinement d o)

/-- extract_system_rep.rs:47-73 with executable_query.rs:76-82 -/
def QueryEnv.refinement (X : QueryEnv Z) (load : String → Res Component) (e e' : SysExpr) : Res (QueryOutcome Z) := do
  let (l, d, q) ← getSystemRecipe load e 0 none
  let (r, d, q) ← getSystemRecipe load e' d q
  X.refinementOf l r d q

/-- extract_system_rep.rs:74-101 with executable_query.rs:97-102, from the recipe on -/
def QueryEnv.reachabilityOf (X : QueryEnv Z) (r : Recipe) (d : Nat) (start : Option StateExpr) (goal : StateExpr) :
    Res (QueryOutcome Z) := do
  let (s, st, en) ← reachabilityQuery (X.compiled d) r start goal
  .ok (.reachability d (← findPath (X.zoneBounds d) s.ts st en X.fuel))

/-- executable_query.rs:109-121 and pruning, the component of a `get-component` or `prune` query -/
def QueryEnv.componentOf (X : QueryEnv Z) (pruned : Bool) (s : Σ d, Sys (Z d)) (name : Option String) : Res Component := do
  let ⟨d, s⟩ := s
  let s ← if pruned then pruneSystem (pruneWork (X.predt d) X.fuel) (X.pruned d) (X.saved d s) (X.checks d s) X.fuel s else .ok s
  getComponent s (X.saved d s) X.fuel (name.getD "Unnamed")

/-- extract_system_rep.rs:42-172 `create_executable_query` with the `execute` of executable_query.rs:74-140 -/
def QueryEnv.run (X : QueryEnv Z) (load : String → Res Component) : QueryExpr → Res (QueryOutcome Z)
  | .refinement e e' => X.refinement load e e'
  | .reachability e start goal => do
    let (r, d, _) ← getSystemRecipe load e 0 none
    X.reachabilityOf r d start goal
  | .consistency e => do
    let ⟨d, s⟩ ← X.system load e
    .ok (.consistency d (← s.precheck (X.checks d s) X.fuel))
  | .determinism e => do
    let ⟨d, s⟩ ← X.system load e
    .ok (.determinism d (← s.checkDet (X.checks d s) X.fuel))
  | .getComponent e => do .ok (.getComponent (← X.componentOf false (← X.system load e.system) e.name))
  | .prune e => do .ok (.getComponent (← X.componentOf true (← X.system load e.system) e.name))
  | .implementation _ | .specification _ | .bisimMinim _ => .error (.err "Not yet setup to handle query")

/-- send_query.rs:75-85 `parse_query` before it -/
def QueryEnv.answer (X : QueryEnv Z) (load : String → Res Component) (text : Text.Chars) : Res (QueryOutcome Z) := do
  match ← parseQueries text with
  | [q] => X.run load q
  | _ => .error (.err "This procedure takes in exactly 1 query")

end
end Reveaal
