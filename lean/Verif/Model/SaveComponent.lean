import Verif.Model.ClockReduction

/-!
# Saving a system as one component

Models `src/System/save_component.rs`, `prune_system` and the outer part of `prune` of `src/System/pruning.rs`,
`Component::remake_edge_ids`, `CompiledUpdate::as_update`, the printing of location and transition identifiers, and
the executor of `get-component` in `src/System/executable_query.rs`.
-/

namespace Reveaal
open ZoneLib

/-! ## Printed identifiers -/

/-- location_id.rs:78-126, how an operand of the conjunction operator is printed -/
def LocId.parenConj (i : LocId) (s : String) : String :=
  match i with
  | .conjunction _ _ | .simple _ => s
  | _ => "(" ++ s ++ ")"

/-- location_id.rs:96-107, how an operand of the composition operator is printed -/
def LocId.parenComp (i : LocId) (s : String) : String :=
  match i with
  | .composition _ _ | .simple _ => s
  | _ => "(" ++ s ++ ")"

/-- location_id.rs:108-118, how an operand of the quotient operator is printed -/
def LocId.parenQuot (i : LocId) (s : String) : String :=
  match i with
  | .simple _ => s
  | _ => "(" ++ s ++ ")"

/-- location_id.rs:78-126 `Display for LocationID` -/
def LocId.display : LocId → String
  | .conjunction a b => a.parenConj a.display ++ "&&" ++ b.parenConj b.display
  | .composition a b => a.parenComp a.display ++ "||" ++ b.parenComp b.display
  | .quotient a b => a.parenQuot a.display ++ "\\\\" ++ b.parenQuot b.display
  | .simple name => name
  | .any => "_"
  | .special s => s.toStr

/-- transition_id.rs:119-130 -/
def TransId.parenConj (i : TransId) (s : String) : String :=
  match i with
  | .conjunction _ _ | .simple _ => s
  | _ => "(" ++ s ++ ")"

/-- transition_id.rs:132-143 -/
def TransId.parenComp (i : TransId) (s : String) : String :=
  match i with
  | .composition _ _ | .simple _ => s
  | _ => "(" ++ s ++ ")"

/-- transition_id.rs:145-159 -/
def TransId.parenQuot (i : TransId) (s : String) : String :=
  match i with
  | .simple _ => s
  | _ => "(" ++ s ++ ")"

mutual
/-- transition_id.rs:117-166 `Display for TransitionID` -/
def TransId.display : TransId → String
  | .conjunction a b => a.parenConj a.display ++ "&&" ++ b.parenConj b.display
  | .composition a b => a.parenComp a.display ++ "||" ++ b.parenComp b.display
  | .quotient l r => TransId.displayAll l ++ "\\\\" ++ TransId.displayAll r
  | .simple name => name
  | .none => "NoID"
/-- transition_id.rs:146-151, 153-158: the loop over one side of a quotient identifier -/
def TransId.displayAll : List TransId → String
  | [] => ""
  | t :: ts => t.parenQuot t.display ++ TransId.displayAll ts
end

/-! ## Clock names -/

section
variable {F : Type}

/-- `get_decls`: compiled_component.rs:171-173, common.rs:97-103, quotient.rs:355-360 with the declarations built in
quotient.rs:80-83 -/
def Sys.decls : Sys F → List Decls
  | .comp c => [c.decls]
  | .composition l r _ _ _ _ _ => l.decls ++ r.decls
  | .conjunction l r _ _ => l.decls ++ r.decls
  | .quotient t s _ _ clock _ => t.decls ++ s.decls ++ [⟨[], [("quotient_xnew", clock)]⟩]
end

/-- save_component.rs:81-87, one clock of the declarations number `k` -/
def addClock (k : Nat) (clocks : List (String × Nat)) (p : String × Nat) : List (String × Nat) :=
  if (clocks.map (·.1)).contains p.1 then hmInsert (p.1 ++ toString k) p.2 clocks else hmInsert p.1 p.2 clocks

/-- save_component.rs:80-88, the loop over the declarations, the first of which is number `k` -/
def mergeClocks : Nat → List Decls → List (String × Nat) → List (String × Nat)
  | _, [], clocks => clocks
  | k, d :: ds, clocks => mergeClocks (k + 1) ds (d.clocks.foldl (addClock k) clocks)

/-- save_component.rs:73-91 `get_clock_map`; the clocks of each declaration are in the iteration order of its hash
map. -/
def clockMap (ds : List Decls) : List (String × Nat) :=
  match ds with
  | [d] => d.clocks
  | ds => mergeClocks 0 ds []

/-- updater.rs:55-62 `as_update`.  Inverting the map by collecting keeps, for an index, the last name in iteration
order. -/
def CUpdate.asUpdate (naming : List (String × Nat)) (u : CUpdate) : Res Update := do
  .ok ⟨← unwrap ((invertNaming naming).lookup u.clock), .int u.value⟩

/-! ## Locations and edges -/

variable {F : Type} [ZoneLib F]

/-- transition.rs:166-171 `get_renamed_guard_expression` -/
def Transition.renamedGuard (naming : List (String × Nat)) (t : Transition F) : Res (Option BoolE) :=
  Reveaal.fromDisjunction (minimal t.guard) naming

/-- transition.rs:173-184 `get_renamed_updates` -/
def Transition.renamedUpdates (naming : List (String × Nat)) (t : Transition F) : Res (Option (List Update)) := do
  let us ← t.updates.mapM (CUpdate.asUpdate naming)
  .ok (if us.isEmpty then none else some us)

/-- save_component.rs:52-69, one location -/
def saveLocation (naming : List (String × Nat)) (l : LocTree F) : Res Location := do
  let inv ← match l.inv with
    | some fed => Reveaal.fromDisjunction (minimal fed) naming
    | none => .ok none
  .ok ⟨l.id.display, inv, if l.isInitial then .initial else .normal, "NORMAL"⟩

/-- save_component.rs:177-200, the edge for one transition, if its guard is not `false` -/
def saveEdge (naming : List (String × Nat)) (l : LocTree F) (sync : SyncType) (a : String) (t : Transition F) :
    Res (Option Edge) := do
  let guard ← t.renamedGuard naming
  if guard = some (.bool false) then .ok none
  else do
    let us ← t.renamedUpdates naming
    .ok (some ⟨t.id.display, l.id.display, t.target.id.display, sync, guard, us, a⟩)

/-- save_component.rs:164-202 `collect_specific_edges_from_location`; `acts` are the actions in iteration order -/
def saveEdgesOf (ts : TS F) (naming : List (String × Nat)) (l : LocTree F) (sync : SyncType) (acts : List String) :
    Res (List Edge) := do
  let es ← acts.mapM fun a => do
    let trans ← ts.next l a
    let es ← trans.mapM (saveEdge naming l sync a)
    .ok (es.filterMap id)
  .ok es.flatten

/-- The iteration orders of the two action sets in one call: inputs and outputs.  The code clones a hash set in each
call, so the order may be different for every location. (save_component.rs:110-150) -/
abbrev ActionOrder (F : Type) := LocTree F → List String × List String

/-- save_component.rs:154-162 `collect_edges_from_location` -/
def saveEdges (ts : TS F) (naming : List (String × Nat)) (ord : ActionOrder F) (l : LocTree F) : Res (List Edge) := do
  let ins ← saveEdgesOf ts naming l .input (ord l).1
  let outs ← saveEdgesOf ts naming l .output (ord l).2
  .ok (ins ++ outs)

/-- save_component.rs:128-152 `collect_reachable_locations`.  The code is not bounded; the model stops after `fuel`
nested calls. -/
def collectReachable (ts : TS F) (ord : ActionOrder F) : Nat → LocTree F → List (LocTree F) → Res (List (LocTree F))
  | 0, _, _ => .error .fuel
  | fuel + 1, l, locs =>
    ((ord l).1 ++ (ord l).2).foldlM (fun locs a => do
      let trans ← ts.next l a
      trans.foldlM (fun locs t =>
        if locs.any (fun x => x.eqv t.target) then .ok locs
        else collectReachable ts ord fuel t.target (locs ++ [t.target])) locs) locs

/-- save_component.rs:6-9 `enum PruningStrategy`; `Reachable` carries the step bound of the model -/
inductive PruningStrategy where
  | reachable (fuel : Nat)
  | noPruning

/-- save_component.rs:93-104 and 106-126, the locations collected by the two strategies -/
def collectLocations (ts : TS F) (ord : ActionOrder F) : PruningStrategy → Res (List (LocTree F))
  | .reachable fuel => do
    match ← ts.initialLoc with
    | none => .ok []
    | some l => collectReachable ts ord fuel l [l]
  | .noPruning => ts.allLocs

/-- save_component.rs:15-43 `combine_components`; the location trees are collected first, then the edges in the order
of the locations -/
def combineComponents (s : Sys F) (ord : ActionOrder F) (strategy : PruningStrategy) : Res Component := do
  let naming := clockMap s.decls
  let trees ← collectLocations s.ts ord strategy
  let edges ← trees.mapM (saveEdges s.ts naming ord)
  let locations ← trees.mapM (saveLocation naming)
  .ok ⟨"", ⟨[], naming⟩, locations, edges.flatten⟩

/-- component.rs:103-108 `remake_edge_ids` -/
def Component.remakeEdgeIds (c : Component) : Component :=
  { c with edges := c.edges.mapIdx fun i e => { e with id := "E" ++ toString i } }

/-- executable_query.rs:109-121, the component returned by the executor of `get-component` -/
def getComponent (s : Sys F) (ord : ActionOrder F) (fuel : Nat) (name : String) : Res Component := do
  let c ← combineComponents s ord (.reachable fuel)
  .ok ({ c with name := name } : Component).remakeEdgeIds

end Reveaal
