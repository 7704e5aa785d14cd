import Verif.Model.Expr

/-!
# Locations, transitions, symbolic states

Models `src/TransitionSystems/location_id.rs`, `src/TransitionSystems/location_tree.rs`,
`src/TransitionSystems/transition_id.rs` (the type), `src/EdgeEval/updater.rs`,
`src/ModelObjects/transition.rs` and `src/ModelObjects/state.rs`.
-/

namespace Reveaal
open ZoneLib

/-- specifics.rs `enum SpecialLocation` -/
inductive SpecialLoc where
  | universal
  | error
deriving DecidableEq, Repr

/-- location_id.rs:6-15 `enum LocationID` -/
inductive LocId where
  | conjunction (l r : LocId)
  | composition (l r : LocId)
  | quotient (l r : LocId)
  | simple (name : String)
  | special (s : SpecialLoc)
  | any
deriving DecidableEq, Repr

/-- location.rs:6-12 `enum LocationType` -/
inductive LocType where
  | normal
  | initial
  | universal
  | inconsistent
  | any
deriving DecidableEq, Repr

/-- location.rs:15-20 `LocationType::combine` -/
def LocType.combine : LocType → LocType → LocType
  | .initial, .initial => .initial
  | _, _ => .normal

/-- location_tree.rs:9-14 `enum CompositionType` -/
inductive CompType where
  | conjunction
  | composition
  | quotient
  | simple
deriving DecidableEq, Repr

/-- location_tree.rs:17-24 `struct LocationTree`.  The code has two optional children; every
constructor in the code sets both or none, so the model has a childless and a binary form. -/
inductive LocTree (F : Type) where
  | leaf (id : LocId) (inv : Option F) (ty : LocType)
  | node (id : LocId) (inv : Option F) (ty : LocType) (l r : LocTree F)

namespace LocTree
variable {F : Type}

/-- location_tree.rs:18, field `id` -/
def id : LocTree F → LocId
  | leaf i _ _ => i
  | node i _ _ _ _ => i

/-- location_tree.rs:20, field `invariant`; also 133-135 `get_invariants` -/
def inv : LocTree F → Option F
  | leaf _ i _ => i
  | node _ i _ _ _ => i

/-- location_tree.rs:21, field `loc_type` -/
def ty : LocTree F → LocType
  | leaf _ _ t => t
  | node _ _ t _ _ => t

/-- location_tree.rs:26-30 `PartialEq`: only identifier and type are compared. -/
def eqv (a b : LocTree F) : Bool := decide (a.id = b.id) && decide (a.ty = b.ty)

/-- location_tree.rs:33-41 `universal` -/
def universalLoc : LocTree F := leaf (.special .universal) none .universal

/-- location_tree.rs:75-83 `build_any_location_tree` -/
def anyLoc : LocTree F := leaf .any none .any

/-- location_tree.rs:86-98 `merge_as_quotient` -/
def merge (l r : LocTree F) : LocTree F :=
  node (.quotient l.id r.id) none (l.ty.combine r.ty) l r

/-- location_tree.rs:144-146 `get_left` -/
def getLeft : LocTree F → Res (LocTree F)
  | leaf _ _ _ => .error (.panic "called `Option::unwrap()` on a `None` value")
  | node _ _ _ l _ => .ok l

/-- location_tree.rs:148-150 `get_right` -/
def getRight : LocTree F → Res (LocTree F)
  | leaf _ _ _ => .error (.panic "called `Option::unwrap()` on a `None` value")
  | node _ _ _ _ r => .ok r

/-- location_tree.rs:152-154 -/
def isInitial (l : LocTree F) : Bool := decide (l.ty = .initial)
/-- location_tree.rs:156-158 -/
def isUniversal (l : LocTree F) : Bool := decide (l.ty = .universal)
/-- location_tree.rs:160-162 -/
def isInconsistent (l : LocTree F) : Bool := decide (l.ty = .inconsistent)

variable [ZoneLib F]

/-- location_tree.rs:43-53 `error` -/
def errorLoc (quotientClock : Nat) : LocTree F :=
  leaf (.special .error) (some (constrainEq univ quotientClock 0)) .inconsistent

/-- location_tree.rs:112-120, the invariant of a composed location -/
def composeInv (a b : Option F) : Option F :=
  match a with
  | some i1 =>
    match b with
    | some i2 => some (inter i1 i2)
    | none => some i1
  | none => b

/-- location_tree.rs:101-131 `compose` -/
def compose (l r : LocTree F) (comp : CompType) : Res (LocTree F) :=
  match comp with
  | .conjunction =>
    .ok (node (.conjunction l.id r.id) (composeInv l.inv r.inv) (l.ty.combine r.ty) l r)
  | .composition =>
    .ok (node (.composition l.id r.id) (composeInv l.inv r.inv) (l.ty.combine r.ty) l r)
  | _ => .error (.panic "Invalid composition type")

/-- location_tree.rs:137-142 `apply_invariants` -/
def applyInvariants (l : LocTree F) (fed : F) : F :=
  match l.inv with
  | some i => inter fed i
  | none => fed

/-- transition.rs:139-142 and quotient.rs:413-418 `get_invariant`: the invariant, the universe if there
is none -/
def invOrUniv (l : LocTree F) : F :=
  match l.inv with
  | some fed => fed
  | none => univ

end LocTree

/-- transition_id.rs:7-13 `enum TransitionID` -/
inductive TransId where
  | conjunction (l r : TransId)
  | composition (l r : TransId)
  | quotient (l r : List TransId)
  | simple (name : String)
  | none
deriving Repr

/-- updater.rs:12-15 `struct CompiledUpdate` -/
structure CUpdate where
  clock : Nat
  value : Int
deriving DecidableEq, Repr

namespace CUpdate
variable {F : Type} [ZoneLib F]
/-- updater.rs:51-53 `apply` -/
def apply (u : CUpdate) (fed : F) : F := updateClock fed u.clock u.value
/-- updater.rs:64-66 `apply_as_free` -/
def applyAsFree (u : CUpdate) (fed : F) : F := free fed u.clock
/-- updater.rs:68-70 `apply_as_guard` -/
def applyAsGuard (u : CUpdate) (fed : F) : F := constrainEq fed u.clock u.value
end CUpdate

/-- transition.rs:13-19 `struct Transition` -/
structure Transition (F : Type) where
  id : TransId
  guard : F
  target : LocTree F
  updates : List CUpdate

/-- state.rs:10-13 `struct State`.  The code keeps the zone in an `Option` that is taken and put
back within each method; between method calls it is always present, so the model has no option. -/
structure State (F : Type) where
  loc : LocTree F
  zone : F

namespace Transition
variable {F : Type} [ZoneLib F]

/-- transition.rs:23-30 `without_id` -/
def withoutId (target : LocTree F) : Transition F := ⟨.none, univ, target, []⟩

/-- transition.rs:119-125 `apply_updates` -/
def applyUpdates (t : Transition F) (fed : F) : F := t.updates.foldl (fun fed u => u.apply fed) fed

/-- transition.rs:127-136 `inverse_apply_updates` -/
def inverseApplyUpdates (t : Transition F) (fed : F) : F :=
  let fed := t.updates.foldl (fun fed u => u.applyAsGuard fed) fed
  t.updates.foldl (fun fed u => u.applyAsFree fed) fed

/-- transition.rs:147-149 `apply_guards` -/
def applyGuards (t : Transition F) (zone : F) : F := inter zone t.guard

/-- transition.rs:138-145 `get_allowed_federation` -/
def allowed (t : Transition F) : F :=
  t.applyGuards (t.inverseApplyUpdates t.target.invOrUniv)

/-- transition.rs:56-70 `use_transition`: the verdict and the state after the call. -/
def useTransition (t : Transition F) (s : State F) : Bool × State F :=
  let zone := t.applyGuards s.zone
  if !(isEmpty zone) then
    let zone := up (t.applyUpdates zone)
    let loc := t.target
    let zone := loc.applyInvariants zone
    if !(isEmpty zone) then (true, ⟨loc, zone⟩) else (false, ⟨loc, zone⟩)
  else (false, ⟨s.loc, zone⟩)

/-- transition.rs:73-79 `use_transition_alt` -/
def useAlt (t : Transition F) (s : State F) : Option (State F) :=
  match t.useTransition s with
  | (true, s') => some s'
  | (false, _) => none

/-- transition.rs:97-112, one element of `combinations` -/
def combine (l r : Transition F) (comp : CompType) : Res (Transition F) := do
  let target ← LocTree.compose l.target r.target comp
  let guard := inter l.guard r.guard
  let updates := l.updates ++ r.updates
  let id ← match comp with
    | .conjunction => .ok (TransId.conjunction l.id r.id)
    | .composition => .ok (TransId.composition l.id r.id)
    | _ => .error (.panic "internal error: entered unreachable code: Invalid composition type")
  .ok ⟨id, guard, target, updates⟩

/-- transition.rs:81-117 `combinations` -/
def combinations (left right : List (Transition F)) (comp : CompType) : Res (List (Transition F)) :=
  (left.flatMap fun l => right.map fun r => (l, r)).mapM fun p => combine p.1 p.2 comp

end Transition

namespace State
variable {F : Type} [ZoneLib F]

/-- state.rs:27-42 `from_location` -/
def fromLocation (loc : LocTree F) : Option (State F) :=
  let fed := loc.applyInvariants init
  if isEmpty fed then none else some ⟨loc, fed⟩

/-- state.rs:44-48 `apply_invariants` -/
def applyInvariants (s : State F) : State F := ⟨s.loc, s.loc.applyInvariants s.zone⟩

/-- state.rs:68-74 `is_subset_of` -/
def isSubsetOf (s t : State F) : Bool :=
  if !(s.loc.eqv t.loc) then false else subsetEq s.zone t.zone

/-- state.rs:23-25 `is_contained_in_list` -/
def isContainedIn (s : State F) (l : List (State F)) : Bool := l.any fun t => s.isSubsetOf t

end State

/-- What the algorithms use of a `dyn TransitionSystem` (transition_system.rs:60-242).  Methods that
can panic return `Res`. -/
structure TS (F : Type) where
  /-- `get_input_actions`, in some iteration order -/
  inputs : List String
  /-- `get_output_actions`, in some iteration order -/
  outputs : List String
  /-- `get_initial_location` -/
  initialLoc : Res (Option (LocTree F))
  /-- `get_initial_state` -/
  initialState : Res (Option (State F))
  /-- `next_transitions` -/
  next : LocTree F → String → Res (List (Transition F))
  /-- `get_local_max_bounds` -/
  localBounds : LocTree F → Res Bounds
  /-- `get_all_locations` -/
  allLocs : Res (List (LocTree F))

namespace TS
variable {F : Type} (ts : TS F)

/-- `actions_contain` (transition_system.rs:102-104, with `get_actions` the union of inputs and
outputs: common.rs:64-69, compiled_component.rs:159-161, quotient.rs:326-328) -/
def hasAction (a : String) : Bool := ts.inputs.contains a || ts.outputs.contains a

/-- transition_system.rs:64-74 `next_transitions_if_available` -/
def nextIfAvailable (loc : LocTree F) (a : String) : Res (List (Transition F)) :=
  if ts.hasAction a then ts.next loc a else .ok []

/-- The list is one possible iteration order of `get_actions`, a set with the inputs and the
outputs. (compiled_component.rs:159, common.rs:64, quotient.rs:326) -/
def IsActions (acts : List String) : Prop :=
  acts.Nodup ∧ ∀ a, a ∈ acts ↔ a ∈ ts.inputs ∨ a ∈ ts.outputs

end TS

end Reveaal
