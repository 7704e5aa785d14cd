import Verif.Model.Protocol
import Verif.Model.Refine

/-!
# What is reported about a failed refinement

Models the failures with a state of `src/System/query_failures.rs`, the description of a pair of states in
`src/System/specifics.rs`, and the conversion of these failures in `src/ProtobufServer/proto_conversions.rs`.
The names of the systems, which are only shown, are in `Verif/Model/Answer.lean`.
-/

namespace Reveaal
open ZoneLib

/-- specifics.rs:215-221 `struct SpecificState` -/
structure SpecificState where
  locations : SpecificLoc
  constraints : List (List SpecificConstr)

/-- proto_conversions.rs:20-27 `From<SpecificState> for State` -/
def SpecificState.toProto (x : SpecificState) : Res ProtoState := do
  .ok ⟨some (← x.locations.toProto), some (← x.constraints.mapM fun c => c.mapM (·.toProto))⟩

/-- specifics.rs:133-167 `from_disjunction`, `from_conjunction` -/
def specificDisjunction (m : List (Nat × SpecificClock)) (d : Disj) : List (List SpecificConstr) :=
  d.map fun c => c.map (SpecificConstr.ofConstr m)

/-- `HashMap::extend`: the entries of the second map replace those of the first.
(std, used at specifics.rs:374) -/
def hmExtend {K V : Type} [DecidableEq K] (m n : List (K × V)) : List (K × V) :=
  n.foldl (fun m p => hmInsert p.1 p.2 m) m

section
variable {F : Type} [ZoneLib F]

/-- specifics.rs:368-377 `specific_clock_comp_map_composite`; `ord1` and `ord2` are the iteration orders of the clocks
of a component. -/
def specificClockMapPair (ord1 ord2 : List (String × Nat) → List (String × Nat)) (s1 s2 : Sys F) :
    List (Nat × SpecificClock) :=
  hmExtend (specificClockMap ord1 s1.infos) (specificClockMap ord2 s2.infos)

/-- specifics.rs:291-303 `from_state` -/
def SpecificState.ofState (ord : List (String × Nat) → List (String × Nat)) (s : Sys F) (st : State F) :
    Res SpecificState := do
  .ok ⟨← specificLocation st.loc.id s.infos, specificDisjunction (specificClockMap ord s.infos) (minimal st.zone)⟩

/-- specifics.rs:305-321 `from_state_pair`, with 379-387 `state_pair_specific_location` -/
def SpecificState.ofPair (ord1 ord2 : List (String × Nat) → List (String × Nat)) (s1 s2 : Sys F) (p : StatePair F) :
    Res SpecificState := do
  let l ← specificLocation p.l1.id s1.infos
  let r ← specificLocation p.l2.id s2.infos
  .ok ⟨.branch l r .refinement, specificDisjunction (specificClockMapPair ord1 ord2 s1 s2) (minimal p.zone)⟩

/-- query_failures.rs:174-190, the failures of `enum RefinementFailure` with a state; `cuts` tells
`CutsDelaySolutions` from `CannotMatch` -/
structure RefReport where
  cuts : Bool
  action : String
  isInput : Bool
  state : SpecificState

/-- query_failures.rs:234-266 `cannot_match` and `cuts_delays`; the other failures have no state. -/
def RefFailure.report (ord1 ord2 : List (String × Nat) → List (String × Nat)) (s1 s2 : Sys F) :
    RefFailure F → Option (Res RefReport)
  | .cannotMatch a p => some do
    .ok ⟨false, a, s1.inputs.contains a || s2.inputs.contains a, ← SpecificState.ofPair ord1 ord2 s1 s2 p⟩
  | .cutsDelays a p => some do
    .ok ⟨true, a, s1.inputs.contains a || s2.inputs.contains a, ← SpecificState.ofPair ord1 ord2 s1 s2 p⟩
  | _ => none

/-- The message `RefinementStateFailure` with its `StateAction` (proto_conversions.rs:243-271) -/
structure ProtoRefFailure where
  unmatched : Int
  action : String
  state : Option ProtoState

/-- proto_conversions.rs:243-271 `From<RefinementFailure>`, with 173-178 `state_action_to_proto` -/
def RefReport.toProto (x : RefReport) : Res ProtoRefFailure := do
  .ok ⟨if x.cuts then 1 else 0, x.action, some (← x.state.toProto)⟩

end
end Reveaal
