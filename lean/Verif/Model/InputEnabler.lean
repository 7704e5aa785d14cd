import Verif.Model.System

/-!
# Input enabling

Models `src/System/input_enabler.rs`.  The conversion of a zone to a guard is in `Model/Expr.lean`.
-/

namespace Reveaal
open ZoneLib

section
variable (F : Type) [ZoneLib F]

/-- input_enabler.rs:15-24: the zone of an invariant, everything without one -/
def invZone (c : Component) (l : Location) : Res F :=
  match l.invariant with
  | some i => orPanic (applyConstraints c.decls i univ)
  | none => .ok univ

/-- input_enabler.rs:38-67: where an edge is enabled -/
def edgeZone (c : Component) (e : Edge) : Res F := do
  let l ← c.locationByName e.target
  let z ← invZone F c l
  let z ← (e.update.getD []).foldlM (fun z u => do
    let cu ← CUpdate.compile c.decls u
    .ok (cu.applyAsFree (cu.applyAsGuard z))) z
  e.applyGuard c.decls z

/-- input_enabler.rs:32-88, one location and one input: the edge to add, if any.  The zones have the dimension of
the component alone (line 8). -/
def missingEdge (c : Component) (l : Location) (inv : F) (input : String) : Res (Option Edge) := do
  let es := c.edges.filter fun e => decide (e.sync = .input) && decide (e.source = l.id) &&
    (decide (e.action = input) || decide (e.action = "*"))
  let covered ← es.foldlM (fun fed e => do .ok (append fed (inter (← edgeZone F c e) inv))) (empty : F)
  let rest := subtraction inv covered
  if isEmpty rest then .ok none
  else do
    let guard ← Reveaal.fromDisjunction (minimal rest) c.decls.clocks
    .ok (some ⟨"input_" ++ l.id ++ "_" ++ input, l.id, l.id, .input, guard, none, input⟩)

/-- input_enabler.rs:7-94 `make_input_enabled` -/
def makeInputEnabled (c : Component) (inputs : List String) : Res Component := do
  let new ← c.locations.mapM fun l => do
    let inv ← invZone F c l
    let es ← inputs.mapM (missingEdge F c l inv)
    .ok (es.filterMap id)
  .ok { c with edges := c.edges ++ new.flatten }

end
end Reveaal
