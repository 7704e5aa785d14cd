import Verif.Model.LocalConsistency
import Verif.Model.Decision
import Mathlib.Data.List.Sort

/-!
# Reachability search

Models `src/System/reachability.rs` and `compare_partial_locations` of
`src/TransitionSystems/location_tree.rs`.

The main loop runs while the frontier is not empty; the model gives it `fuel` and answers `Fail.fuel`
when it is used up, which is never counted as a verdict.
-/

namespace Reveaal
open ZoneLib
variable {F : Type}

/-- location_tree.rs:165-181 `compare_partial_locations` (`self`, `other`).  The code matches on the
identifiers and then takes the children, which panics if there are none. -/
def LocTree.comparePartial : LocTree F → LocTree F → Res Bool
  | .node i _ _ l r, .node i' _ _ l' r' =>
    match i, i' with
    | .composition _ _, .composition _ _ | .conjunction _ _, .conjunction _ _
    | .quotient _ _, .quotient _ _ => do
      if ← l.comparePartial l' then r.comparePartial r' else .ok false
    | .any, .simple _ | .simple _, .any | .any, .any => .ok true
    | .simple a, .simple b => .ok (decide (a = b))
    | _, _ => .ok false
  | x, y =>
    match x.id, y.id with
    | .composition _ _, .composition _ _ | .conjunction _ _, .conjunction _ _
    | .quotient _ _, .quotient _ _ => .error (.panic "called `Option::unwrap()` on a `None` value")
    | .any, .simple _ | .simple _, .any | .any, .any => .ok true
    | .simple a, .simple b => .ok (decide (a = b))
    | _, _ => .ok false

variable [ZoneLib F]

/-- reachability.rs:20-25 `struct SubPath`.  The chain of previous sub-paths is a list of the transitions
taken, latest first. -/
structure SubPath (F : Type) where
  taken : List (Transition F × String)
  dest : State F

/-- reachability.rs:27-41 `is_trivially_unreachable` -/
def triviallyUnreachable (start goal : State F) : Bool :=
  if isEmpty start.zone || isEmpty goal.zone then true
  else
    match goal.loc.inv with
    | some i => !(hasIntersection goal.zone i)
    | none => false

/-- reachability.rs:157-162 `reached_end_state` -/
def reachedEnd (cur goal : State F) : Res Bool := do
  if ← cur.loc.comparePartial goal.loc then .ok (hasIntersection cur.zone goal.zone) else .ok false

/-- state.rs:85-93 `extrapolate_max_bounds_with_extra_bounds` -/
def State.extrapolateWith (ts : TS F) (extra : Bounds) (s : State F) : Res (State F) := do
  let b ← ts.localBounds s.loc
  .ok ⟨s.loc, ZoneLib.extrapolate s.zone (Bounds.add b extra)⟩

/-- The frontier and the zones visited per location identifier (a hash map). (reachability.rs:107-111) -/
structure Search (F : Type) where
  frontier : List (SubPath F)
  visited : List (LocId × List F)

/-- `HashMap::get` with the default of `or_default` (reachability.rs:179) -/
def visitedZones (m : List (LocId × List F)) (id : LocId) : List F := (m.lookup id).getD []

/-- reachability.rs:164-197 `take_transition`, with 200-215 `zone_subset_of_existing_zones` and
`remove_existing_subsets_of_zone` -/
def takeTransition (ts : TS F) (extra : Bounds) (sp : SubPath F) (a : String) (t : Transition F)
    (st : Search F) : Res (Search F) :=
  match t.useTransition sp.dest with
  | (true, ns) => do
    let ns ← ns.extrapolateWith ts extra
    let existing := visitedZones st.visited ns.loc.id
    if !(existing.any fun z => subsetEq ns.zone z) then
      let existing := existing.filter fun z => !(subsetEq z ns.zone)
      .ok ⟨st.frontier ++ [⟨(t, a) :: sp.taken, ns⟩],
        hmInsert ns.loc.id (existing ++ [ns.zone]) st.visited⟩
    else .ok ⟨st.frontier, hmInsert ns.loc.id existing st.visited⟩
  | (false, _) => .ok st

/-- reachability.rs:138-150, the loop over the transitions of one action -/
def takeTransitions (ts : TS F) (extra : Bounds) (sp : SubPath F) (a : String) :
    List (Transition F) → Search F → Res (Search F)
  | [], st => .ok st
  | t :: tl, st => do takeTransitions ts extra sp a tl (← takeTransition ts extra sp a t st)

/-- reachability.rs:137-151, the loop over the actions -/
def takeActions (ts : TS F) (extra : Bounds) (sp : SubPath F) : List String → Search F → Res (Search F)
  | [], st => .ok st
  | a :: as, st => do
    let trans ← ts.next sp.dest.loc a
    takeActions ts extra sp as (← takeTransitions ts extra sp a trans st)

/-- reachability.rs:231-239, the loop that turns the transitions into decisions -/
def replay : List (Transition F × String) → State F → Res (List (Decision F))
  | [], _ => .ok []
  | (t, a) :: tl, s => do
    match ← Decision.fromStateTransition s t a with
    | none => .error (.panic "If the transition is in a path, it should lead to a non-empty state")
    | some d => do
      let ds ← replay tl (t.useTransition s).2
      .ok (d :: ds)

/-- reachability.rs:217-240 `make_path` -/
def makePath (sp : SubPath F) (start : State F) : Res (List (Decision F)) := replay sp.taken.reverse start

/-- reachability.rs:130-155, the main loop; `none` is `Err(Unreachable)` -/
def searchLoop (ts : TS F) (extra : Bounds) (actions : List String) (start goal : State F) :
    Nat → Search F → Res (Option (List (Decision F)))
  | 0, _ => .error .fuel
  | fuel + 1, st =>
    match st.frontier with
    | [] => .ok none
    | sp :: rest => do
      if ← reachedEnd sp.dest goal then do
        let p ← makePath sp start
        .ok (some p)
      else do
        let st ← takeActions ts extra sp actions ⟨rest, st.visited⟩
        searchLoop ts extra actions start goal fuel st

/-- reachability.rs:110-111, the sorted actions -/
def TS.sortedActions (ts : TS F) : List String :=
  (mkSet (ts.inputs ++ ts.outputs)).insertionSort (· ≤ ·)

/-- reachability.rs:98-155 `reachability_search`; `zoneBounds` is `OwnedFederation::get_bounds`. -/
def reachabilitySearch (zoneBounds : F → Bounds) (ts : TS F) (start goal : State F) (fuel : Nat) :
    Res (Option (List (Decision F))) :=
  let start := start.applyInvariants
  searchLoop ts (zoneBounds goal.zone) ts.sortedActions start goal fuel
    ⟨[⟨[], start⟩], [(start.loc.id, [start.zone])]⟩

/-- reachability.rs:74-84 `find_path` -/
def findPath (zoneBounds : F → Bounds) (ts : TS F) (start goal : State F) (fuel : Nat) :
    Res (Option (List (Decision F))) :=
  if triviallyUnreachable start goal then .ok none
  else reachabilitySearch zoneBounds ts start goal fuel

/-- The same with the actions in the order in which the hash set gives them: reachability.rs:110-111 collects
them into a vector and sorts it. -/
def findPathIn (zoneBounds : F → Bounds) (ts : TS F) (ord : List String) (start goal : State F) (fuel : Nat) :
    Res (Option (List (Decision F))) :=
  if triviallyUnreachable start goal then .ok none
  else
    let start := start.applyInvariants
    searchLoop ts (zoneBounds goal.zone) (ord.insertionSort (· ≤ ·)) start goal fuel
      ⟨[⟨[], start⟩], [(start.loc.id, [start.zone])]⟩

end Reveaal
