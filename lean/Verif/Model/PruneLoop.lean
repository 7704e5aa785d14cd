import Verif.Model.Pruning
import Verif.Model.InputEnabler

/-!
# The loop of pruning

Models the loop of `prune` of `src/System/pruning.rs`: finding the states from which an inconsistent location cannot
be avoided, and removing them.  `predt` stands for `OwnedFederation::predt` of the zone library (the states from which
time leads into the first federation without passing through the second), of which nothing is assumed here.
-/

namespace Reveaal
open ZoneLib
variable {F : Type} [ZoneLib F]

/-- pruning.rs:31-37 `struct PruneContext`.  `locs` has the end of the vector first (`pop` takes the head). -/
structure PruneCtx (F : Type) where
  comp : Component
  locs : List String
  parts : List (String × F)
  passed : List (String × F)

/-- pruning.rs:179-182, 213-216, 229-231, 259-261, 317-319, 345-347, 380-383, 431-434, 448-450: restrict to an
invariant, if there is one -/
def Location.restrict (l : Location) (d : Decls) (z : F) : Res F :=
  match l.invariant with
  | some i => orPanic (applyConstraints d i z)
  | none => .ok z

/-- pruning.rs:184-190, 240-242, 399-403, 460-462: updates as guards, one after the other -/
def Edge.asGuards (e : Edge) (d : Decls) (z : F) : Res F :=
  (e.update.getD []).foldlM (fun z u => do
    let cu ← CUpdate.compile d u
    .ok (cu.applyAsGuard z)) z

/-- pruning.rs:246-248, 333-335, 364-370, 407-411, 466-468: free the updated clocks, one after the other -/
def Edge.asFrees (e : Edge) (d : Decls) (z : F) : Res F :=
  (e.update.getD []).foldlM (fun z u => do
    let cu ← CUpdate.compile d u
    .ok (cu.applyAsFree z)) z

/-- pruning.rs:244-249, 330-337, 405-412, 464-469: the same unless the federation is empty -/
def Edge.freesUnlessEmpty (e : Edge) (d : Decls) (z : F) : Res F :=
  if isEmpty z then .ok z else e.asFrees d z

/-- pruning.rs:238-250, 396-413, 457-470: back through the updates -/
def Edge.undo (e : Edge) (d : Decls) (z : F) : Res F := do
  let z ← e.asGuards d z
  e.freesUnlessEmpty d z

/-- pruning.rs:234-236, 264-266, 453-455: subtract the inconsistent part, if there is one -/
def withoutPart (p : Option F) (z : F) : F :=
  match p with
  | some i => subtraction z i
  | none => z

/-- pruning.rs:279-281: what was known already is added -/
def unionPart (p : Option F) (z : F) : F :=
  match p with
  | some i => append z i
  | none => z

/-- The first edge equal to `e` gets the guard `g`. (pruning.rs:64, 75) -/
def replaceGuard (e : Edge) (g : Option BoolE) : List Edge → List Edge
  | [] => []
  | e' :: es => if e' = e then { e' with guard := g } :: es else e' :: replaceGuard e g es

namespace PruneCtx

/-- pruning.rs:52-54 `get_incons` -/
def getIncons (x : PruneCtx F) (n : String) : Res F :=
  match x.parts.lookup n with
  | some z => .ok z
  | none => .error (.panic "called `Option::unwrap()` on a `None` value")

/-- pruning.rs:56-61 `remove_edge` -/
def removeEdge (x : PruneCtx F) (e : Edge) : PruneCtx F :=
  { x with comp := { x.comp with edges := x.comp.edges.erase e } }

/-- pruning.rs:63-77 `update_edge_guard` -/
def updateGuard (x : PruneCtx F) (e : Edge) (z : F) : Res (PruneCtx F) :=
  if e ∈ x.comp.edges then do
    let g ← Reveaal.fromDisjunction (minimal z) x.comp.decls.clocks
    .ok { x with comp := { x.comp with edges := replaceGuard e g x.comp.edges } }
  else .ok x

/-- pruning.rs:273-299 `process_source_location` -/
def processSource (x : PruneCtx F) (n : String) (z : F) : PruneCtx F :=
  if isEmpty z then x
  else
    let z := unionPart (x.parts.lookup n) z
    let x := { x with parts := hmInsert n z x.parts }
    if x.passed.any fun p => decide (p.1 = n) && equals p.2 z then x
    else { x with passed := x.passed ++ [(n, z)], locs := n :: x.locs }

/-- pruning.rs:225-271 `remove_transition_if_unsat` -/
def removeIfUnsat (x : PruneCtx F) (e : Edge) : Res (PruneCtx F) := do
  let target ← x.comp.locationByName e.target
  let z ← target.restrict x.comp.decls univ
  let z ← e.undo x.comp.decls (withoutPart (x.parts.lookup e.target) z)
  let z ← e.applyGuard x.comp.decls z
  let source ← x.comp.locationByName e.source
  let z ← source.restrict x.comp.decls z
  if isEmpty (withoutPart (x.parts.lookup e.source) z) then .ok (x.removeEdge e) else .ok x

/-- pruning.rs:321-328: remove the inconsistent part of the target, if the target is on the stack -/
def safePart (x : PruneCtx F) (n : String) (z : F) : Res F :=
  if n ∈ x.locs then do .ok (subtraction z (← x.getIncons n)) else .ok z

/-- pruning.rs:313-352, one output of `predt_of_all_outputs` -/
def predtOutput (predt : F → F → F) (x : PruneCtx F) (source : Location) (bad : F) (o : Edge) : Res F := do
  let target ← x.comp.locationByName o.target
  let z ← target.restrict x.comp.decls univ
  let z ← x.safePart o.target z
  let z ← o.freesUnlessEmpty x.comp.decls z
  let z ← o.applyGuard x.comp.decls z
  let z ← source.restrict x.comp.decls z
  .ok (append bad (predt bad z))

/-- The outputs that leave a location. (pruning.rs:307-311, 440-442) -/
def outputsFrom (x : PruneCtx F) (n : String) : List Edge :=
  x.comp.edges.filter fun e => decide (e.source = n) && decide (e.sync = .output)

/-- pruning.rs:301-356 `predt_of_all_outputs` -/
def predtOutputs (predt : F → F → F) (x : PruneCtx F) (source : Location) (bad : F) : Res F :=
  (x.outputsFrom source.id).foldlM (x.predtOutput predt source) bad

/-- pruning.rs:358-386 `back_exploration_on_transition` -/
def backThrough (x : PruneCtx F) (e : Edge) (z : F) : Res F := do
  let z ← e.asFrees x.comp.decls z
  let z ← e.applyGuard x.comp.decls z
  let source ← x.comp.locationByName e.source
  source.restrict x.comp.decls z

/-- pruning.rs:208-217 -/
def pastIfSame (x : PruneCtx F) (e : Edge) (z z' : F) : Res F :=
  if equals z z' then do
    let source ← x.comp.locationByName e.source
    source.restrict x.comp.decls (down z')
  else .ok z'

/-- pruning.rs:198-220, the part of `handle_input` that adds to the source location.  The outputs considered are those
of the target location (line 206), as in the code. -/
def spoilSource (predt : F → F → F) (x : PruneCtx F) (e : Edge) (target : Location) (z : F) : Res (PruneCtx F) :=
  if isEmpty z then .ok x
  else do
    let z' ← x.predtOutputs predt target z
    let z'' ← x.pastIfSame e z z'
    .ok (x.processSource e.source z'')

/-- pruning.rs:174-223 `handle_input` -/
def handleInput (predt : F → F → F) (x : PruneCtx F) (e : Edge) : Res (PruneCtx F) := do
  let target ← x.comp.locationByName e.target
  let bad ← x.getIncons target.id
  let z ← target.restrict x.comp.decls bad
  let z ← e.asGuards x.comp.decls z
  if isEmpty z then .ok x
  else do
    let z ← x.backThrough e z
    let x ← x.spoilSource predt e target z
    x.removeIfUnsat e

/-- pruning.rs:389-426, the part of `handle_output` about the edge itself -/
def cutEdge (x : PruneCtx F) (e : Edge) : Res (PruneCtx F) := do
  let bad ← x.getIncons e.target
  if isUniverse bad then .ok (x.removeEdge e)
  else do
    let bad ← e.undo x.comp.decls bad
    let g ← e.applyGuard x.comp.decls univ
    let g := subtraction g bad
    if isEmpty g then .ok (x.removeEdge e) else x.updateGuard e g

/-- pruning.rs:443-477, the states of a location that one output saves -/
def saves (x : PruneCtx F) (inv : F) (o : Edge) : Res F := do
  let target ← x.comp.locationByName o.target
  let z ← target.restrict x.comp.decls univ
  let z ← o.undo x.comp.decls (withoutPart (x.parts.lookup o.target) z)
  let z ← o.applyGuard x.comp.decls z
  .ok (inter (down z) inv)

/-- pruning.rs:428-484, the part of `handle_output` about the source location -/
def stuckSource (x : PruneCtx F) (e : Edge) : Res (PruneCtx F) := do
  let source ← x.comp.locationByName e.source
  let inv ← source.restrict x.comp.decls univ
  if canDelayIndefinitely inv then .ok x
  else do
    let saved ← (x.outputsFrom e.source).foldlM (fun acc o => do .ok (append acc (← x.saves inv o))) (empty : F)
    .ok (x.processSource e.source (subtraction inv saved))

/-- pruning.rs:388-485 `handle_output` -/
def handleOutput (x : PruneCtx F) (e : Edge) : Res (PruneCtx F) := do
  let x ← x.cutEdge e
  x.stuckSource e

/-- pruning.rs:121-123 -/
def handleIfInput (predt : F → F → F) (x : PruneCtx F) (e : Edge) : Res (PruneCtx F) :=
  if e.sync = .input then x.handleInput predt e else .ok x

/-- pruning.rs:121-124, one edge into the location taken from the stack -/
def handleEdge (predt : F → F → F) (x : PruneCtx F) (e : Edge) : Res (PruneCtx F) := do
  let x ← x.handleIfInput predt e
  x.handleOutput e

/-- pruning.rs:112-136, the loop.  The edges are those of the given component `c` (116-119). -/
def loop (predt : F → F → F) (c : Component) : Nat → PruneCtx F → Res (PruneCtx F)
  | fuel, ⟨comp, [], parts, passed⟩ => .ok ⟨comp, [], parts, passed⟩
  | 0, ⟨_, _ :: _, _, _⟩ => .error .fuel
  | fuel + 1, ⟨comp, n :: locs, parts, passed⟩ => do
    let x ← (c.edges.filter fun e => decide (e.target = n)).foldlM (handleEdge predt) ⟨comp, locs, parts, passed⟩
    loop predt c fuel x

end PruneCtx

/-- pruning.rs:156-171, one location of `add_inconsistent_parts_to_invariants` -/
def Location.withoutPart (d : Decls) (parts : List (String × F)) (l : Location) : Res Location :=
  match parts.lookup l.id with
  | none => .ok l
  | some bad => do
    let z ← l.restrict d univ
    let g ← Reveaal.fromDisjunction (minimal (subtraction z bad)) d.clocks
    .ok { l with invariant := g }

/-- pruning.rs:150-172 `add_inconsistent_parts_to_invariants` -/
def addParts (parts : List (String × F)) (c : Component) : Res Component := do
  let ls ← c.locations.mapM (Location.withoutPart c.decls parts)
  .ok { c with locations := ls }

/-- pruning.rs:97-138: the work done by `prune` between finding the inconsistent locations and compiling. -/
def pruneWork (predt : F → F → F) (fuel : Nat) (bad : List String) (c : Component) : Res Component := do
  let x ← PruneCtx.loop predt c fuel ⟨c, bad.reverse, bad.foldl (fun m n => hmInsert n (univ : F) m) [], []⟩
  addParts x.parts x.comp

end Reveaal
