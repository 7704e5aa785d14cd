import Verif.Model.Transition

/-!
# Simulation decisions

Models `src/Simulation/decision.rs`.
-/

namespace Reveaal
open ZoneLib

/-- decision.rs:6-11 `struct Decision` -/
structure Decision (F : Type) where
  state : State F
  action : String
  transition : Option (Transition F)
  nextState : State F

namespace Decision
variable {F : Type} [ZoneLib F]

/-- decision.rs:37-60 `from_state_transition` -/
def fromStateTransition (s : State F) (t : Transition F) (a : String) : Res (Option (Decision F)) :=
  let s : State F := ⟨s.loc, inter s.zone t.allowed⟩
  if !(isEmpty s.zone) then
    match t.useAlt s with
    | some s' => .ok (some ⟨s, a, some t, s'⟩)
    | none => .error (.panic "If the allowed zone is non-empty, the transition should lead to a non-empty state")
  else .ok none

/-- decision.rs:68-73, the loop over the transitions of one action -/
def fromTransitions (s : State F) (a : String) : List (Transition F) → Res (List (Decision F))
  | [] => .ok []
  | t :: ts => do
    let d ← fromStateTransition s t a
    let ds ← fromTransitions s a ts
    .ok (d.toList ++ ds)

/-- decision.rs:63-77 `get_decisions_from_state`; `acts` is the iteration order of `get_actions`. -/
def fromState (ts : TS F) : List String → State F → Res (List (Decision F))
  | [], _ => .ok []
  | a :: acts, s => do
    let trans ← ts.next s.loc a
    let ds ← fromTransitions s a trans
    let rest ← fromState ts acts s
    .ok (ds ++ rest)

/-- decision.rs:80-87 `get_initial_decisions` -/
def initialDecisions (ts : TS F) (acts : List String) : Res (List (Decision F)) := do
  match ← ts.initialState with
  | some s => fromState ts acts s
  | none => .error (.panic "Expected system to have initial state")

/-- decision.rs:19-32, the state `resolve` moves to -/
def resolveState (d : Decision F) (ts : TS F) : Res (State F) := do
  let trans ← ts.next d.state.loc d.action
  match trans.filterMap fun t => t.useAlt d.state with
  | [] => .error (.panic "Decision leads to no new states")
  | [s] => .ok s
  | _ => .error (.panic "Ambiguous decision leads to multiple new states")

/-- decision.rs:18-35 `resolve` -/
def resolve (d : Decision F) (ts : TS F) (acts : List String) : Res (List (Decision F)) := do
  fromState ts acts (← d.resolveState ts)

end Decision
end Reveaal
