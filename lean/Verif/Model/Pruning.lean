import Verif.Model.SaveComponent
import Verif.Model.LocalConsistency

/-!
# Pruning

Models `prune_system` and the frame of `prune` of `src/System/pruning.rs`.  The loop is in `Model/PruneLoop.lean`.
-/

namespace Reveaal
open ZoneLib
variable {F : Type} [ZoneLib F]

/-- pruning.rs:487-494 `is_immediately_inconsistent` (what follows in the code is a comment) -/
def immediatelyInconsistent (F : Type) [ZoneLib F] (c : Component) (l : Location) : Res Bool := do
  let t : LocTree F ← LocTree.simple c.decls l
  .ok t.isInconsistent

/-- pruning.rs:84-148 `prune`.  `work` is the loop over the inconsistent locations and the change of the
invariants (97-138, `pruneWork` in `Model/PruneLoop.lean`): given the locations found inconsistent at the start it returns
the new component.  Without such
locations the loop does not run and there are no inconsistent parts to remove, so the component is unchanged. -/
def prune (work : List String → Component → Res Component)
    (order : List (LocId × LocTree F) → List (LocId × LocTree F)) (c : Component) (inputs outputs : List String) :
    Res (CompComp F) := do
  let flags ← c.locations.mapM fun l => do
    let b ← immediatelyInconsistent F c l
    .ok (l.id, b)
  let bad := (flags.filter (·.2)).map (·.1)
  let c' ← if bad.isEmpty then .ok c else work bad c
  CompComp.compileWith order c' inputs outputs 0

/-- pruning.rs:15-29 `prune_system` -/
def pruneSystem (work : List String → Component → Res Component)
    (order : List (LocId × LocTree F) → List (LocId × LocTree F)) (ord : ActionOrder F)
    (checkOrd : List Bool → Orders) (fuel : Nat) (s : Sys F) : Res (Sys F) := do
  match ← s.precheck checkOrd fuel with
  | some _ => .error (.panic "Cannot prune transitions system which is not least consistent")
  | none => do
    let c ← combineComponents s ord .noPruning
    let x ← orPanic (prune work order c s.inputs s.outputs)
    .ok (.comp x)

end Reveaal
