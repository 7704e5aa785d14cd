import Verif.Model.ClockReduction
import Verif.Model.Reachability

/-!
# States in reachability queries

Models `src/ModelObjects/Expressions/state_expression.rs`, `src/System/extract_state.rs`, and the reachability case
of `create_executable_query` (`src/System/extract_system_rep.rs`).
-/

namespace Reveaal
open ZoneLib

/-- state_expression.rs:26-33 `struct ComponentVariable` -/
structure CompVar where
  component : String
  specialId : Option String
  name : String
deriving DecidableEq, Repr

/-- state_expression.rs:18-23 `enum OperandExpression` -/
inductive Operand where
  | number (n : Int)
  | clock (v : CompVar)
  | difference (l r : Operand)
  | sum (l r : Operand)
deriving DecidableEq, Repr

/-- The five comparisons of `StateExpression` (state_expression.rs:5-10) -/
inductive Cmp where
  | leq | geq | eq | lt | gt
deriving DecidableEq, Repr

/-- state_expression.rs:4-15 `enum StateExpression`; the five comparisons share one constructor. -/
inductive StateExpr where
  | cmp (op : Cmp) (l r : Operand)
  | and (es : List StateExpr)
  | or (es : List StateExpr)
  | location (v : CompVar)
  | not (e : StateExpr)
  | bool (b : Bool)

/-- state_expression.rs:45-80 `to_arith_expression`; the components come with their special ids. -/
def Operand.toArith (comps : List (Component × Option String)) : Operand → Res Arith
  | .number n => .ok (.int n)
  | .clock v =>
    match comps.find? fun c => decide (c.1.name = v.component) && decide (c.2 = v.specialId) with
    | none => .error (.err "Component not found")
    | some c =>
      match c.1.decls.clockIndex v.name with
      | none => .error (.err "Clock not found for component")
      | some i => .ok (.clock i)
  | .difference l r => do .ok (.dif (← l.toArith comps) (← r.toArith comps))
  | .sum l r => do .ok (.add (← l.toArith comps) (← r.toArith comps))

/-- The comparison of the guard language that a comparison is turned into (state_expression.rs:98-117) -/
def Cmp.toBool : Cmp → Arith → Arith → BoolE
  | .leq, l, r => .le l r
  | .geq, l, r => .ge l r
  | .eq, l, r => .eq l r
  | .lt, l, r => .lt l r
  | .gt, l, r => .gt l r

/-- state_expression.rs:122-131, 134-143: the first operand, and the rest folded onto it from the left -/
def foldOperands (op : BoolE → BoolE → BoolE) : List BoolE → Res BoolE
  | [] => .error (.panic "expression must have at least one operand")
  | e :: es => .ok (es.foldl op e)

mutual

/-- state_expression.rs:98-158 `to_bool_expression` -/
def StateExpr.toBool (comps : List (Component × Option String)) : StateExpr → Res BoolE
  | .cmp op l r => do .ok (op.toBool (← l.toArith comps) (← r.toArith comps))
  | .and es => do foldOperands .and (← StateExpr.toBools comps es)
  | .or es => do foldOperands .or (← StateExpr.toBools comps es)
  | .not _ => .error (.panic "not implemented: NOT expressions are not supported yet")
  | .location _ => .ok (.bool true)
  | .bool b => .ok (.bool b)

/-- The operands, up to the first that fails (state_expression.rs:119-123, 132-136) -/
def StateExpr.toBools (comps : List (Component × Option String)) : List StateExpr → Res (List BoolE)
  | [] => .ok []
  | e :: es => do .ok ((← e.toBool comps) :: (← StateExpr.toBools comps es))

end

mutual

/-- extract_state.rs:61-98 `get_locations` -/
def StateExpr.getLocations : StateExpr → Res (List CompVar)
  | .and es => StateExpr.getAllLocations es
  | .or es => do
    let res ← StateExpr.getAllLocations es
    if res.length ≠ 1 then .error (.err "We do not support disjunctions with more than one location") else .ok res
  | .location v => .ok [v]
  | .not e => do
    let res ← e.getLocations
    if res.isEmpty then .ok [] else .error (.err "We do not support negations of locations")
  | .cmp _ _ _ | .bool _ => .ok []

/-- The loops of `get_locations` (extract_state.rs:65-76) -/
def StateExpr.getAllLocations : List StateExpr → Res (List CompVar)
  | [] => .ok []
  | e :: es => do .ok ((← e.getLocations) ++ (← StateExpr.getAllLocations es))

end

/-- `Vec::dedup`: removes consecutive repetitions. (std, used at extract_state.rs:38) -/
def dedupAdjacent {α : Type} [DecidableEq α] : List α → List α
  | [] => []
  | [x] => [x]
  | x :: y :: l => if x = y then dedupAdjacent (y :: l) else x :: dedupAdjacent (y :: l)

/-- extract_state.rs:23-34, whether two different components cannot be told apart -/
def ambiguousComponents (cs : List (Component × Option String)) : Bool :=
  cs.any fun c1 => cs.any fun c2 => decide (c1 ≠ c2) && (decide (c1.1.name = c2.1.name) && decide (c1.2 = c2.2))

/-- extract_state.rs:40-53, whether two different locations of one component are named -/
def ambiguousLocations (vs : List CompVar) : Bool :=
  vs.any fun v1 => vs.any fun v2 =>
    decide (v1 ≠ v2) && (decide (v1.component = v2.component) && decide (v1.specialId = v2.specialId))

section
variable {F : Type} [ZoneLib F]

/-- `get_children`: common.rs:101-103, quotient.rs:351-353; compiled_component.rs:191-193 panics -/
def Sys.children : Sys F → Res (Sys F × Sys F)
  | .comp _ => .error (.panic "not implemented")
  | .composition l r _ _ _ _ _ | .conjunction l r _ _ | .quotient l r _ _ _ _ => .ok (l, r)

/-- `get_location`: compiled_component.rs:197-199, transition_system.rs:113-118 -/
def Sys.getLocation (s : Sys F) (id : LocId) : Res (Option (LocTree F)) :=
  match s with
  | .comp c => .ok (c.locations.lookup id)
  | s => do .ok ((← s.allLocs).find? fun l => decide (l.id = id))

/-- extract_state.rs:109-152 `construct_location_tree` -/
def Recipe.locationTree (vs : List CompVar) : Recipe → Sys F → Res (LocTree F)
  | .composition l r, s => do
    let (sl, sr) ← s.children
    LocTree.compose (← l.locationTree vs sl) (← r.locationTree vs sr) .composition
  | .conjunction l r, s => do
    let (sl, sr) ← s.children
    LocTree.compose (← l.locationTree vs sl) (← r.locationTree vs sr) .conjunction
  | .quotient l r _, s => do
    let (sl, sr) ← s.children
    .ok (LocTree.merge (← l.locationTree vs sl) (← r.locationTree vs sr))
  | .component c id, s =>
    match vs.find? fun v => decide (v.component = c.name) && decide (v.specialId = id) with
    | none => .ok LocTree.anyLoc
    | some v => do
      match ← s.getLocation (.simple v.name) with
      | some l => .ok l
      | none => .error (.err "Location does not exist in the component")

/-- extract_state.rs:15-59 `get_state`, with 100-107 `create_zone_given_constraints` -/
def getState (e : StateExpr) (r : Recipe) (s : Sys F) : Res (State F) :=
  if ambiguousComponents r.namedComponents then .error (.err "Ambiguous component name")
  else do
    let vs ← e.getLocations
    let vs := dedupAdjacent vs
    if ambiguousLocations vs then .error (.err "Ambiguous location")
    else do
      let tree ← r.locationTree vs s
      let g ← e.toBool r.namedComponents
      let zone ← applyConstraints ⟨[], []⟩ g univ
      .ok ⟨tree, zone⟩

/-- location_id.rs:30-41 `is_partial_location` -/
def LocId.isPartial : LocId → Bool
  | .composition l r | .conjunction l r | .quotient l r => l.isPartial || r.isPartial
  | .simple _ | .special _ => false
  | .any => true

/-- extract_system_rep.rs:79-91, the start state of a reachability query -/
def queryStart (r : Recipe) (s : Sys F) : Option StateExpr → Res (State F)
  | some e => do
    let st ← getState e r s
    if st.loc.id.isPartial then .error (.err "Start state is a partial state, which it must not be") else .ok st
  | none => do
    match ← s.initialState with
    | some st => .ok st
    | none => .error (.err "No start state in the transition system")

/-- extract_system_rep.rs:74-101, the reachability case of `create_executable_query`, from the recipe on: the
system, the start and the end state -/
def reachabilityQuery (env : CompileEnv F) (r : Recipe) (start : Option StateExpr) (goal : StateExpr) :
    Res (Sys F × State F × State F) := do
  let (s, _) ← r.compile env 0
  let st ← queryStart r s start
  let en ← getState goal r s
  .ok (s, st, en)

end
end Reveaal
