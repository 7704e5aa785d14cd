import Verif.Model.Response
import Verif.Model.Execute
import Verif.Model.Serialization

/-!
# The answer to a query, as it is sent or printed

Models the rest of `RefinementFailure` and `QueryResult` in `src/System/query_failures.rs`, the executors of
`src/System/executable_query.rs` with what they report, `print_result` there, and the conversion of a result to the message
of the response in `src/ProtobufServer/ecdar_requests/send_query.rs` and `src/ProtobufServer/proto_conversions.rs`.
`Verif/Model/Execute.lean` has the same executors without the reports.
-/

namespace Reveaal
open ZoneLib

/-! ## Results -/

/-- query_failures.rs:173-203 `enum RefinementFailure` with `enum RefinementPrecondition`; of a `System` only the name is used. -/
inductive RefinementReport where
  /-- `CutsDelaySolutions` and `CannotMatch` -/
  | state (system : String) (f : RefReport)
  | emptyChild (child system : String)
  | emptyInitial (system : String)
  | inconsistentChild (f : ConsReport) (system : String)
  | actionMismatch (f : ActionFailure) (system : String)

/-- query_failures.rs:138-155 `enum QueryResult`, without the two results no executor makes.  A refused recipe is an error of
`create_executable_query`. -/
inductive QueryReport where
  | refinement (failure : Option RefinementReport)
  | reachability (path : Option (List SpecificDecision))
  | consistency (failure : Option ConsReport)
  | determinism (failure : Option DetReport)
  | getComponent (c : Component)

/-- executable_query.rs:14-53, the verdicts `print_result` prints after the text of the query (the failure and the path that
may follow are in Model/Print) -/
inductive Printed where
  | satisfied
  | notSatisfied
  | created
deriving DecidableEq

/-- executable_query.rs:14-45 `print_result` -/
def QueryReport.printed : QueryReport → Printed
  | .refinement none => .satisfied
  | .refinement (some _) => .notSatisfied
  | .reachability (some _) => .satisfied
  | .reachability none => .notSatisfied
  | .consistency none => .satisfied
  | .consistency (some _) => .notSatisfied
  | .determinism none => .satisfied
  | .determinism (some _) => .notSatisfied
  | .getComponent _ => .created

/-! ## Messages -/

/-- The message `RefinementFailure`: its oneof `failure` (proto_conversions.rs:243-296) -/
inductive ProtoRefinementCause where
  | refinementState (f : ProtoRefFailure)
  | emptySystem (name : String)
  | noInitialState (code : Int)
  | inconsistentChild (f : ProtoConsFailure)
  | actionMismatch (f : ProtoActionFailure)

/-- The message `RefinementFailure` (proto_conversions.rs:243-296) -/
structure ProtoRefinementFailure where
  system : String
  failure : Option ProtoRefinementCause

/-- proto_conversions.rs:243-296 `From<RefinementFailure>`; `ord` is the iteration order of a set of actions -/
def RefinementReport.toProto (ord : List String → List String) : RefinementReport → Res ProtoRefinementFailure
  | .state system f => do .ok ⟨system, some (.refinementState (← f.toProto))⟩
  | .emptyChild child system => .ok ⟨system, some (.emptySystem child)⟩
  | .emptyInitial system => .ok ⟨system, some (.noInitialState 0)⟩
  | .inconsistentChild f system => do .ok ⟨system, some (.inconsistentChild (← f.toProto))⟩
  | .actionMismatch f system => .ok ⟨system, some (.actionMismatch (f.toProto ord))⟩

/-- The oneof `result` of the message `QueryResponse` (send_query.rs:88-138); `reachability` stands for two of its fields, the
path and the failure.  The component is the JSON text of the fields (json_writer.rs:15-17). -/
inductive ProtoResult where
  | success
  | refinement (f : ProtoRefinementFailure)
  | consistency (f : ProtoConsFailure)
  | determinism (f : ProtoDetFailure)
  | reachability (p : ProtoReachability)
  | component (raw : RawComponent)

/-- send_query.rs:88-138 `From<QueryResult> for ProtobufResult` -/
def QueryReport.toProto (ord : List String → List String) : QueryReport → Res ProtoResult
  | .refinement none | .consistency none | .determinism none => .ok .success
  | .refinement (some f) => do .ok (.refinement (← f.toProto ord))
  | .consistency (some f) => do .ok (.consistency (← f.toProto))
  | .determinism (some f) => do .ok (.determinism (← f.toProto))
  | .reachability p => do .ok (.reachability (← reachabilityToProto p))
  | .getComponent c => do .ok (.component (← c.write))

/-! ## Executors -/

section
variable {F : Type} [ZoneLib F]

/-- query_failures.rs:205-266 `empty_child`, `empty_initial`, `cannot_match` and `cuts_delays`: the failures found after the
preconditions.  The others are not found there. -/
def RefFailure.describe (ord1 ord2 : List (String × Nat) → List (String × Nat)) (s t : Sys F) (f : RefFailure F) :
    Res RefinementReport :=
  match f with
  | .emptyChild left => .ok (.emptyChild (if left then s.name else t.name) (refinementName s t))
  | .emptyInitial => .ok (.emptyInitial (refinementName s t))
  | f =>
    match f.report ord1 ord2 s t with
    | some x => do .ok (.state (refinementName s t) (← x))
    | none => .error (.panic "not a failure of the search")

/-- refine.rs:90-213 `check_refinement` with 424-454 `check_preconditions` (see `checkRefinement`) and what they report
(query_failures.rs:349-358, 473-479).  `ord1` and `ord2` are the iteration orders of the clocks of a component. -/
def refinementReport (ord1 ord2 : List (String × Nat) → List (String × Nat)) (s t : Sys F) (checks checks' : List Bool → Orders)
    (outs ins : List String) (fuel : Nat) : Res (Option RefinementReport) := do
  match ← s.precheckFailure checks fuel with
  | some (p, f) => do .ok (some (.inconsistentChild (← f.report ord1 p) (refinementName s t)))
  | none =>
    match ← t.precheckFailure checks' fuel with
    | some (p, f) => do .ok (some (.inconsistentChild (← f.report ord2 p) (refinementName s t)))
    | none =>
      match s.refinementFailure t with
      | some x => do .ok (some (.actionMismatch (← x) (refinementName s t)))
      | none =>
        match ← Refine.explore s.ts t.ts outs ins fuel with
        | some f => do .ok (some (← f.describe ord1 ord2 s t))
        | none => .ok none

end

/-- The iteration orders used when a result is reported (specifics.rs:347-377, proto_conversions.rs:180-188): of the clocks of
a component, for the left (or only) and the right system, and of a set of actions -/
structure ReportEnv where
  clocks : List (String × Nat) → List (String × Nat)
  clocks' : List (String × Nat) → List (String × Nat)
  actions : List String → List String

section
variable {Z : Nat → Type} [∀ d, ZoneLib (Z d)]

/-- extract_system_rep.rs:47-73 with executable_query.rs:76-82 (see `QueryEnv.refinement`) -/
def QueryEnv.refinementResult (X : QueryEnv Z) (E : ReportEnv) (load : String → Res Component) (e e' : SysExpr) :
    Res QueryReport := do
  let (l, d, q) ← getSystemRecipe load e 0 none
  let (r, d, q) ← getSystemRecipe load e' d q
  let (l, r, d) ← X.reduceTwo l r d q
  let (s, i) ← l.compile (X.compiled d) 0
  let (t, _) ← r.compile (X.compiled' d) i
  let o ← refinementReport E.clocks E.clocks' s t (X.checks d s) (X.checks' d t) (X.outs d s) (X.ins d t) X.fuel
  .ok (.refinement o)

/-- extract_system_rep.rs:42-172 `create_executable_query` with the `execute` of executable_query.rs:74-140 (see
`QueryEnv.run`) -/
def QueryEnv.result (X : QueryEnv Z) (E : ReportEnv) (load : String → Res Component) : QueryExpr → Res QueryReport
  | .refinement e e' => X.refinementResult E load e e'
  | .reachability e start goal => do
    let (r, d, _) ← getSystemRecipe load e 0 none
    let (s, st, en) ← reachabilityQuery (X.compiled d) r start goal
    .ok (.reachability (← findSpecificPath (X.zoneBounds d) E.clocks s st en X.fuel))
  | .consistency e => do
    let ⟨d, s⟩ ← X.system load e
    match ← s.precheckFailure (X.checks d s) X.fuel with
    | some (p, f) => do .ok (.consistency (some (← f.report E.clocks p)))
    | none => .ok (.consistency none)
  | .determinism e => do
    let ⟨d, s⟩ ← X.system load e
    match ← s.detFailure (X.checks d s) X.fuel with
    | some (p, f) => do .ok (.determinism (some (← f.report E.clocks p)))
    | none => .ok (.determinism none)
  | .getComponent e => do .ok (.getComponent (← X.componentOf false (← X.system load e.system) e.name))
  | .prune e => do .ok (.getComponent (← X.componentOf true (← X.system load e.system) e.name))
  | .implementation _ | .specification _ | .bisimMinim _ => .error (.err "Not yet setup to handle query")

/-- send_query.rs:32-73, from the text of the query to the result in the response, once the components are known -/
def QueryEnv.respond (X : QueryEnv Z) (E : ReportEnv) (load : String → Res Component) (text : Text.Chars) : Res ProtoResult := do
  match ← parseQueries text with
  | [q] => do (← X.result E load q).toProto E.actions
  | _ => .error (.err "This procedure takes in exactly 1 query")

end
end Reveaal
