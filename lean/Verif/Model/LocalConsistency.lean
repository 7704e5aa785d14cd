import Verif.Model.System

/-!
# The determinism and consistency checks

Models `src/System/local_consistency.rs`, the methods `check_determinism`, `check_local_consistency` and
`precheck_sys_rep` of the transition systems (`src/TransitionSystems/common.rs`, `compiled_component.rs`,
`quotient.rs`, `transition_system.rs`), and with them the complete constructors of conjunction and
quotient.

The searches recurse without a bound in the code; the model gives them `fuel` and answers `Fail.fuel`
when it is used up, which is never counted as a verdict.  The actions are visited in the iteration order
of a hash set, which may differ at every visit: the model takes the order from an oracle that is asked
with the number of states passed so far (every visit passes one more state).

`is_fully_consistent` (local_consistency.rs:70-78, 127-175) is not called outside the tests and is not
modelled.
-/

namespace Reveaal
open ZoneLib
variable {F : Type} [ZoneLib F]

/-- state.rs:80-83 `extrapolate_max_bounds` -/
def State.extrapolate (ts : TS F) (s : State F) : Res (State F) := do
  let b ← ts.localBounds s.loc
  .ok ⟨s.loc, ZoneLib.extrapolate s.zone b⟩

/-- query_failures.rs:497-503 `DeterminismFailure`: the state and the action for which the check failed.  What is reported
of it is built in `Verif/Model/Answer.lean`. -/
structure DetFailure (F : Type) where
  state : State F
  action : String

/-- The location of the state (query_failures.rs:497-503) -/
def DetFailure.loc (f : DetFailure F) : LocTree F := f.state.loc

/-- The outcome of a recursive visit: the failure, if any, and the passed list afterwards.
(local_consistency.rs:34-60, 80-175) -/
abbrev Visit (X F : Type) := Option X × List (State F)

/-- local_consistency.rs:47-64, the loop over the transitions of one action; `visit` is the recursive
call, `fed` is `location_fed` -/
def detTransitions (visit : State F → List (State F) → Res (Visit (DetFailure F) F)) (ts : TS F)
    (s : State F) (a : String) : List (Transition F) → F → List (State F) →
    Res (Visit (DetFailure F) F)
  | [], _, p => .ok (none, p)
  | t :: tl, fed, p =>
    match t.useTransition s with
    | (true, ns) =>
      let allowed := s.loc.applyInvariants t.allowed
      if hasIntersection allowed fed then .ok (some ⟨s, a⟩, p)
      else do
        let ns ← ns.extrapolate ts
        let r ← visit ns p
        match r with
        | (some x, p) => .ok (some x, p)
        | (none, p) => detTransitions visit ts s a tl (append fed allowed) p
    | (false, _) => detTransitions visit ts s a tl fed p

/-- local_consistency.rs:45-66, the loop over the actions -/
def detActions (visit : State F → List (State F) → Res (Visit (DetFailure F) F)) (ts : TS F)
    (s : State F) : List String → List (State F) → Res (Visit (DetFailure F) F)
  | [], p => .ok (none, p)
  | a :: as, p => do
    let trans ← ts.next s.loc a
    let r ← detTransitions visit ts s a trans empty p
    match r with
    | (some x, p) => .ok (some x, p)
    | (none, p) => detActions visit ts s as p

/-- local_consistency.rs:34-67 `is_deterministic_helper` -/
def detHelper (ts : TS F) (ord : Nat → List String) : Nat → State F → List (State F) →
    Res (Visit (DetFailure F) F)
  | 0, _, _ => .error .fuel
  | fuel + 1, s, p =>
    if s.isContainedIn p then .ok (none, p)
    else detActions (detHelper ts ord fuel) ts s (ord p.length) (p ++ [s])

/-- local_consistency.rs:23-32 `check_determinism` -/
def checkDeterminism (ts : TS F) (ord : Nat → List String) (fuel : Nat) :
    Res (Option (DetFailure F)) := do
  match ← ts.initialState with
  | none => .ok none
  | some s => do
    let r ← detHelper ts ord fuel ⟨s.loc, univ⟩ []
    .ok r.1

/-- query_failures.rs:423-440 `ConsistencyFailure` -/
inductive ConsFailure (F : Type) where
  | noInitialState
  | inconsistent (state : State F)
  | inconsistentFrom (state : State F)
  | notDeterministic (f : DetFailure F)

/-- local_consistency.rs:98-105, the loop over the transitions of one input -/
def consInputTransitions (visit : State F → List (State F) → Res (Visit (ConsFailure F) F)) (ts : TS F)
    (s : State F) : List (Transition F) → List (State F) → Res (Visit (ConsFailure F) F)
  | [], p => .ok (none, p)
  | t :: tl, p =>
    match t.useTransition s with
    | (true, ns) => do
      let ns ← ns.extrapolate ts
      let r ← visit ns p
      match r with
      | (some x, p) => .ok (some x, p)
      | (none, p) => consInputTransitions visit ts s tl p
    | (false, _) => consInputTransitions visit ts s tl p

/-- local_consistency.rs:97-106, the loop over the inputs -/
def consInputs (visit : State F → List (State F) → Res (Visit (ConsFailure F) F)) (ts : TS F)
    (s : State F) : List String → List (State F) → Res (Visit (ConsFailure F) F)
  | [], p => .ok (none, p)
  | a :: as, p => do
    let trans ← ts.next s.loc a
    let r ← consInputTransitions visit ts s trans p
    match r with
    | (some x, p) => .ok (some x, p)
    | (none, p) => consInputs visit ts s as p

/-- local_consistency.rs:113-121, the loop over the transitions of one output: is there one that leads
to success? -/
def consOutputTransitions (visit : State F → List (State F) → Res (Visit (ConsFailure F) F)) (ts : TS F)
    (s : State F) : List (Transition F) → List (State F) → Res (Bool × List (State F))
  | [], p => .ok (false, p)
  | t :: tl, p =>
    match t.useTransition s with
    | (true, ns) => do
      let ns ← ns.extrapolate ts
      let r ← visit ns p
      match r with
      | (none, p) => .ok (true, p)
      | (some _, p) => consOutputTransitions visit ts s tl p
    | (false, _) => consOutputTransitions visit ts s tl p

/-- local_consistency.rs:112-122, the loop over the outputs -/
def consOutputs (visit : State F → List (State F) → Res (Visit (ConsFailure F) F)) (ts : TS F)
    (s : State F) : List String → List (State F) → Res (Bool × List (State F))
  | [], p => .ok (false, p)
  | a :: as, p => do
    let trans ← ts.next s.loc a
    let r ← consOutputTransitions visit ts s trans p
    match r with
    | (true, p) => .ok (true, p)
    | (false, p) => consOutputs visit ts s as p

/-- local_consistency.rs:80-125 `consistency_least_helper` -/
def consHelper (ts : TS F) (ordI ordO : Nat → List String) : Nat → State F → List (State F) →
    Res (Visit (ConsFailure F) F)
  | 0, _, _ => .error .fuel
  | fuel + 1, s, p =>
    if s.isContainedIn p then .ok (none, p)
    else if s.loc.isUniversal then .ok (none, p)
    else if s.loc.isInconsistent then .ok (some (.inconsistent s), p)
    else do
    let r ← consInputs (consHelper ts ordI ordO fuel) ts s (ordI p.length) (p ++ [s])
    match r with
    | (some x, p') => .ok (some x, p')
    | (none, p') =>
      if canDelayIndefinitely s.zone then .ok (none, p')
      else do
      let r ← consOutputs (consHelper ts ordI ordO fuel) ts s (ordO p.length) p'
      match r with
      | (true, p') => .ok (none, p')
      | (false, p') => .ok (some (.inconsistentFrom s), p')

/-- local_consistency.rs:11-20 `is_least_consistent` -/
def isLeastConsistent (ts : TS F) (ordI ordO : Nat → List String) (fuel : Nat) :
    Res (Option (ConsFailure F)) := do
  match ← ts.initialState with
  | none => .ok (some .noInitialState)
  | some s => do
    let s ← s.extrapolate ts
    let r ← consHelper ts ordI ordO fuel s []
    .ok r.1

/-- The iteration orders chosen by the hash sets during the checks of one (sub)system.
(std `HashSet`, iterated at local_consistency.rs:45, 97, 112, 137, 151) -/
structure Orders where
  acts : Nat → List String
  inputs : Nat → List String
  outputs : Nat → List String

namespace Sys

/-- `check_determinism`: compiled_component.rs:175-177, common.rs:105-109, quotient.rs:362-365.  The
orders of the subsystems are found by the position in the tree. -/
def checkDet (ord : List Bool → Orders) (fuel : Nat) : Sys F → Res (Option (DetFailure F))
  | comp c => checkDeterminism (Sys.comp c).ts (ord []).acts fuel
  | composition l r _ _ _ _ _ => do
    match ← l.checkDet (fun p => ord (false :: p)) fuel with
    | some f => .ok (some f)
    | none => r.checkDet (fun p => ord (true :: p)) fuel
  | conjunction l r _ _ => do
    match ← l.checkDet (fun p => ord (false :: p)) fuel with
    | some f => .ok (some f)
    | none => r.checkDet (fun p => ord (true :: p)) fuel
  | quotient t s _ _ _ _ => do
    match ← t.checkDet (fun p => ord (false :: p)) fuel with
    | some f => .ok (some f)
    | none => s.checkDet (fun p => ord (true :: p)) fuel

/-- `check_local_consistency`: compiled_component.rs:179-181, common.rs:111-115 (the blanket
implementation: the methods of the same name in composition.rs and conjunction.rs belong to another
trait and are never called), quotient.rs:367-370 -/
def checkCons (ord : List Bool → Orders) (fuel : Nat) : Sys F → Res (Option (ConsFailure F))
  | comp c => isLeastConsistent (Sys.comp c).ts (ord []).inputs (ord []).outputs fuel
  | composition l r _ _ _ _ _ => do
    match ← l.checkCons (fun p => ord (false :: p)) fuel with
    | some f => .ok (some f)
    | none => r.checkCons (fun p => ord (true :: p)) fuel
  | conjunction l r _ _ => do
    match ← l.checkCons (fun p => ord (false :: p)) fuel with
    | some f => .ok (some f)
    | none => r.checkCons (fun p => ord (true :: p)) fuel
  | quotient t s _ _ _ _ => do
    match ← s.checkCons (fun p => ord (true :: p)) fuel with
    | some f => .ok (some f)
    | none => t.checkCons (fun p => ord (false :: p)) fuel

/-- transition_system.rs:122-125 `precheck_sys_rep`; the consistency query is this check
(executable_query.rs:125-129). -/
def precheck (ord : List Bool → Orders) (fuel : Nat) (s : Sys F) : Res (Option (ConsFailure F)) := do
  match ← s.checkDet ord fuel with
  | some f => .ok (some (.notDeterministic f))
  | none => s.checkCons ord fuel

/-- conjunction.rs:24-72 `Conjunction::new_ts` -/
def newConjunction (ord : Orders) (fuel : Nat) (left right : Sys F) : Res (Sys F) := do
  let s ← newConjunctionUnchecked left right
  match ← isLeastConsistent s.ts ord.inputs ord.outputs fuel with
  | some _ => .error (.err "inconsistent conjunction")
  | none => .ok s

/-- quotient.rs:36-112 `Quotient::new_ts` -/
def newQuotient (ord : List Bool → Orders) (fuel : Nat) (T S : Sys F) (clock : Nat) : Res (Sys F) := do
  let q ← newQuotientUnchecked T S clock
  match ← T.precheck (fun p => ord (false :: p)) fuel with
  | some _ => .error (.err "precheck of T failed")
  | none =>
    match ← S.precheck (fun p => ord (true :: p)) fuel with
    | some _ => .error (.err "precheck of S failed")
    | none => .ok q

end Sys
end Reveaal
