import Verif.Model.Server
import Verif.Model.Xml
import Verif.Model.Protocol

/-!
# The server, with what its handlers call

`Calls` of `Verif/Model/Server.lean`, filled in with the models of reading components (`request_util.rs`,
`component_loader.rs`), of queries (`Verif/Model/Execute.lean`) and of simulations (`Verif/Model/Protocol.lean`).
-/

namespace Reveaal
open ZoneLib

/-- The message `Component` (matched at component_loader.rs:174-187).  `json none` is a text that is not a JSON object with
the fields of a component, `xml none` a text that is not XML. -/
inductive ProtoComponent where
  | json (raw : Option RawComponent)
  | xml (x : Option Xml)
  | empty

/-- component_loader.rs:173-202 `parse_components_if_some`, `parse_json_component`, `parse_xml_components` -/
def ProtoComponent.components : ProtoComponent → Res (List Component)
  | .json none => .error (.err "Failed to parse json component")
  | .json (some raw) => do .ok [← raw.read]
  | .xml none => .error (.panic "called `Result::unwrap()` on an `Err` value")
  | .xml (some x) => orPanic x.components
  | .empty => .ok []

/-- request_util.rs:24-28: `flat_map` over results drops the errors -/
def requestComponents : List ProtoComponent → Res (List Component)
  | [] => .ok []
  | p :: ps =>
    match p.components with
    | .ok cs => do .ok (cs ++ (← requestComponents ps))
    | .error (.err _) => requestComponents ps
    | .error e => .error e

section
variable {Z : Nat → Type} [∀ d, ZoneLib (Z d)]

/-- request_util.rs:24-29 with 36-50 `constrtuct_componentsmap` (which does the same as component_loader.rs:160-171) -/
def requestModel (Z : Nat → Type) [∀ d, ZoneLib (Z d)] (ps : List ProtoComponent) : Res (List (String × Component)) := do
  containerOf Z (← requestComponents ps)

/-- The orders in which the hash maps and sets of one request are gone through, and the step bound of the model
(for the code called at send_query.rs:50-57, request_util.rs:66, simulation_requests.rs:24-37, 52-68) -/
structure RequestEnv (Z : Nat → Type) where
  query : QueryEnv Z
  compiled : ∀ d, CompileEnv (Z d)
  clocks : List (String × Nat) → List (String × Nat)
  actions : ∀ d, Sys (Z d) → List String

/-- A panic ends the call (ecdar_backend.rs:50-75); so does an error that is unwrapped.  A search of the model that runs out
of its step bound counts as a panic, too: that is not a behaviour of the code. -/
def crashing {α : Type} : Res α → Crash α
  | .ok a => .ok a
  | .error (.err m) => .error m
  | .error (.panic m) => .error m
  | .error .fuel => .error ""

/-- send_query.rs:47, the settings of the request; true: clock reduction is disabled -/
def QueryEnv.withSettings (X : QueryEnv Z) (disabled : Bool) : QueryEnv Z := { X with reduce := !disabled }

/-- The two kinds of errors of `create_executable_query` (extract_system_rep.rs:42-172): those of states and of queries that are
not supported are texts, the others are failures of a recipe (as far as the model knows them: their message) -/
def queryOutcome (X : QueryEnv Z) (load : String → Res Component) (q : QueryExpr) : Crash (Outcome (QueryOutcome Z) String) :=
  match X.run load q with
  | .ok A => .ok (.result A)
  | .error (.err m) =>
    match q with
    | .implementation _ | .specification _ | .bisimMinim _ => .ok (.custom m)
    | .reachability e _ _ =>
      match (getSystemRecipe load e 0 none >>= fun x => (x.1.compile (X.compiled x.2.1) 0).map fun _ => ()) with
      | .ok _ => .ok (.custom m)
      | .error _ => .ok (.recipe m)
    | _ => .ok (.recipe m)
  | .error e => crashing (.error e)

/-- transition_system.rs:254-263 `component_loader_to_transition_system` -/
def RequestEnv.system (E : RequestEnv Z) (composition : String) (m : List (String × Component)) : Res (Σ d, Sys (Z d)) := do
  let e ← orPanic (parseSystem composition.toList)
  let (r, d, _) ← getSystemRecipe (namedEntry m) e 0 none
  let (s, _) ← orPanic (r.compile (E.compiled d) 0)
  .ok ⟨d, s⟩

/-- What the handlers call (send_query.rs:32-75, simulation_requests.rs:17-71, request_util.rs:15-67) -/
def RequestEnv.calls (E : RequestEnv Z) : Calls ProtoComponent (List (String × Component)) QueryExpr (QueryOutcome Z) String
    ProtoDecision (Option ProtoState × List ProtoDecision) where
  parseQueries text := crashing (orPanic (parseQueries text.toList))
  parseComponents ps := crashing (requestModel Z ps)
  runQuery q m disabled := queryOutcome (E.query.withSettings disabled) (namedEntry m) q
  startSimulation composition m := crashing do
    let x ← E.system composition m
    startSimulation E.clocks x.2 (E.actions x.1 x.2)
  stepSimulation composition m d := crashing do
    let x ← E.system composition m
    stepSimulation E.clocks x.2 (E.actions x.1 x.2) d

end
end Reveaal
