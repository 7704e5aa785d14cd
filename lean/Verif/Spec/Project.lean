import Verif.Model.Project

/-!
# What the queries of one run are about

The specification of C65.  It uses the files of the project, its declared inputs, the input enabling of one component
(what that means is C27) and the answer to one query (what that means is C64), but nothing of the loaders.
-/

namespace Reveaal
open ZoneLib

variable {Z : Nat → Type} [∀ d, ZoneLib (Z d)]

/-- In the project with these files and declared inputs, `name` is the name of the component `c`: the file with that name
can be read, the component in it has that name, and `c` is that component, input-enabled if inputs are declared for it. -/
def InProject (Z : Nat → Type) [∀ d, ZoneLib (Z d)] (files : String → Option RawComponent) (inputs : String → Option (List String))
    (name : String) (c : Component) : Prop :=
  ∃ raw c0, files name = some raw ∧ raw.read = .ok c0 ∧ c0.name = name ∧
    match inputs name with
    | some ins => makeInputEnabled (Z c0.decls.clocks.length) c0 ins = .ok c
    | none => c = c0

/-- the component that was saved last under this name, given the answers so far -/
def lastSaved : List (QueryOutcome Z) → String → Option Component
  | [], _ => none
  | .getComponent c :: As, name =>
    match lastSaved As name with
    | some c' => some c'
    | none => if c.name = name then some c else none
  | _ :: As, name => lastSaved As name

/-- what a query sees after these answers, if it saw `v` before all of them -/
def seenAfter (v : String → Res Component) (As : List (QueryOutcome Z)) (name : String) : Res Component :=
  match lastSaved As name with
  | some c => .ok c
  | none => v name

/-- the files of the project after these answers -/
def filesAfter (files : String → Option RawComponent) (As : List (QueryOutcome Z)) (name : String) : Option RawComponent :=
  match lastSaved As name with
  | some c => c.write.toOption
  | none => files name

/-- `As` are answers to the queries, in this order, each about what it sees at that point: what was saved last, and
otherwise `v`.  What the queries save can be written. -/
structure AnswersInTurn (v : String → Res Component) (qs : List (QueryEnv Z × QueryExpr)) (As : List (QueryOutcome Z)) :
    Prop where
  length : As.length = qs.length
  answers : ∀ (i : Nat) (h : i < qs.length) (h' : i < As.length),
    (qs[i]).1.run (seenAfter v (As.take i)) (qs[i]).2 = .ok As[i]
  written : ∀ c, QueryOutcome.getComponent c ∈ As → ∃ raw, c.write = .ok raw

/-- the query saves a component -/
def QueryExpr.saves : QueryExpr → Bool
  | .getComponent _ | .prune _ => true
  | _ => false

end Reveaal
