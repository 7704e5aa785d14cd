import Verif.Model.Answer
import Verif.Model.Reachability

/-!
# The path in an answer

Models the descriptions of decisions and paths in `src/System/specifics.rs`, the search that answers with such a
description in `src/System/reachability.rs`, and the conversion of a path in `src/ProtobufServer/proto_conversions.rs`.
-/

namespace Reveaal
open ZoneLib

/-- specifics.rs:16-23 `struct SpecificDecision` -/
structure SpecificDecision where
  source : SpecificState
  action : String
  edges : List SpecificEdge
  destination : SpecificState

/-- proto_conversions.rs:326-335 `From<SpecificDecision> for Decision`; an edge is sent as it is (347-354). -/
def SpecificDecision.toProto (x : SpecificDecision) : Res ProtoDecision := do
  .ok ⟨some (← x.source.toProto), x.action, x.edges, some (← x.destination.toProto)⟩

/-- The messages `ReachabilityPath` and `ReachabilityFailure` (proto_conversions.rs:314-324, 337-345) -/
inductive ProtoReachability where
  | path (decisions : Option (List ProtoDecision))
  | failure (code : Int)

/-- send_query.rs:91 and 98 with proto_conversions.rs:314-324 and 337-345: the answer to a reachability query; `none` is
`Err(Unreachable)`. -/
def reachabilityToProto : Option (List SpecificDecision) → Res ProtoReachability
  | some path => do .ok (.path (some (← path.mapM (·.toProto))))
  | none => .ok (.failure 0)

section
variable {F : Type} [ZoneLib F]

/-- specifics.rs:66-80 `from_decision` -/
def SpecificDecision.ofDecision (ord : List (String × Nat) → List (String × Nat)) (s : Sys F) (d : Decision F) :
    Res SpecificDecision := do
  let edges ← match d.transition with
    | some t => specificEdges t.id s
    | none => .ok []
  let source ← SpecificState.ofState ord s d.state
  let destination ← SpecificState.ofState ord s d.nextState
  .ok ⟨source, d.action, edges, destination⟩

/-- specifics.rs:88-98 `from_path` -/
def specificPath (ord : List (String × Nat) → List (String × Nat)) (s : Sys F) (ds : List (Decision F)) :
    Res (List SpecificDecision) :=
  ds.mapM (SpecificDecision.ofDecision ord s)

/-- reachability.rs:86-92 `find_specific_path` -/
def findSpecificPath (zoneBounds : F → Bounds) (ord : List (String × Nat) → List (String × Nat)) (s : Sys F)
    (start goal : State F) (fuel : Nat) : Res (Option (List SpecificDecision)) := do
  match ← findPath zoneBounds s.ts start goal fuel with
  | some ds => do .ok (some (← specificPath ord s ds))
  | none => .ok none

end
end Reveaal
