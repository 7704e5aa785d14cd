import Verif.Model.Respond
import Verif.Spec.FailureReport
import Verif.Spec.ActionReport

/-!
# What the answer to a query, as it is sent or printed, has to say
-/

namespace Reveaal
open ZoneLib

/-! ## Verdicts -/

/-- The check was passed, or a path was found. -/
def QueryOutcome.Yes {Z : Nat → Type} : QueryOutcome Z → Prop
  | .refinement _ f => f = none
  | .reachability _ p => p ≠ none
  | .consistency _ f => f = none
  | .determinism _ f => f = none
  | .getComponent _ => False

/-- How a client reads a response: `success` and a path mean yes. -/
def ProtoResult.Yes (m : ProtoResult) : Prop := m = .success ∨ ∃ ds, m = .reachability (.path ds)

/-- The response is of the kind the query asks for.  A refinement, consistency or determinism query is answered with `success`
or with its own kind of failure, a reachability query with a path or its kind of failure, the others with a component. -/
def ProtoResult.Fits : QueryExpr → ProtoResult → Prop
  | .refinement _ _, m => m = .success ∨ ∃ f, m = .refinement f
  | .consistency _, m => m = .success ∨ ∃ f, m = .consistency f
  | .determinism _, m => m = .success ∨ ∃ f, m = .determinism f
  | .reachability _ _ _, m => (∃ ds, m = .reachability (.path (some ds))) ∨ m = .reachability (.failure 0)
  | .getComponent _, m | .prune _, m => ∃ c, m = .component c
  | .implementation _, _ | .specification _, _ | .bisimMinim _, _ => False

/-! ## Failures of a refinement -/

section
variable {F : Type} [ZoneLib F]

/-- The system is component instance `n`, which is `k`. -/
def Sys.IsInstance (n : Nat) (k : Component) (p : Sys F) : Prop :=
  ∃ (order : List (LocId × LocTree F) → List (LocId × LocTree F)) (c : CompComp F),
    (∀ l, (order l).Perm l) ∧ CompComp.compile order k n = .ok c ∧ p = .comp c

/-- What is told about a failed refinement of `s`, which is put together as `l` says, by `t`, which is put together as `r` says.
The instances of `l` have the numbers from 0 on, those of `r` the numbers after them. -/
inductive RefinementReport.Told (l r : Recipe) (s t : Sys F) : RefFailure F → RefinementReport → Prop
  /-- a component instance of the left side fails the determinism or consistency check -/
  | left {f : ConsFailure F} {x : ConsReport} {n : Nat} {k : Component} {p : Sys F} :
      l.components[n]? = some k → p.IsInstance n k → x.Told (l.components ++ r.components) p.ts n k f →
      Told l r s t (.precheck true f) (.inconsistentChild x (s.name ++ " <= " ++ t.name))
  /-- a component instance of the right side does -/
  | right {f : ConsFailure F} {x : ConsReport} {n : Nat} {k : Component} {p : Sys F} :
      r.components[n]? = some k → p.IsInstance (l.components.length + n) k →
      x.Told (l.components ++ r.components) p.ts (l.components.length + n) k f →
      Told l r s t (.precheck false f) (.inconsistentChild x (s.name ++ " <= " ++ t.name))
  /-- an input of one side is an output of the other, an input of the left side is missing on the right, or an output of the
  right side is missing on the left -/
  | actions {f : RefFailure F} {x : ActionFailure} : ((∃ b, f = .notDisjoint b) ∨ ∃ b, f = .notSubset b) →
      (x.left.Tells s true ∧ x.right.Tells t false ∧ x.Overlap ∨ x.left.Tells t true ∧ x.right.Tells s false ∧ x.Overlap ∨
       x.left.Tells s true ∧ x.right.Tells t true ∧ x.Excess ∨ x.left.Tells t false ∧ x.right.Tells s false ∧ x.Excess) →
      Told l r s t f (.actionMismatch x (s.name ++ " <= " ++ t.name))
  /-- only one side has an initial location -/
  | emptyLeft {m : LocTree F} : s.initialLoc = .ok none → t.initialLoc = .ok (some m) →
      Told l r s t (.emptyChild true) (.emptyChild s.name (s.name ++ " <= " ++ t.name))
  | emptyRight {m : LocTree F} : s.initialLoc = .ok (some m) → t.initialLoc = .ok none →
      Told l r s t (.emptyChild false) (.emptyChild t.name (s.name ++ " <= " ++ t.name))
  /-- the two sides cannot start together: at no time after the start both initial invariants hold -/
  | emptyInitial {m m' : LocTree F} : s.initialLoc = .ok (some m) → t.initialLoc = .ok (some m') →
      (∀ d : ℝ, 0 ≤ d → ¬ (delay (dim F) zeroVal d ∈ InvSet m ∧ delay (dim F) zeroVal d ∈ InvSet m')) →
      Told l r s t .emptyInitial (.emptyInitial (s.name ++ " <= " ++ t.name))
  /-- the pair of states at which the search stopped, with the action that is not answered (see C58) -/
  | state {f : RefFailure F} {x : RefReport} {p : StatePair F} :
      f = (if x.cuts then .cutsDelays x.action p else .cannotMatch x.action p) → s.IsLoc p.l1 → t.IsLoc p.l2 →
      PairDescribed l r p x.state → ((x.isInput = false ∧ x.action ∈ s.outputs) ∨ (x.isInput = true ∧ x.action ∈ t.inputs)) →
      Told l r s t f (.state (s.name ++ " <= " ++ t.name) x)

/-- The message says what the report says. -/
inductive ProtoRefinementFailure.Says (ord : List String → List String) : RefinementReport → ProtoRefinementFailure → Prop
  | left {x : ConsReport} {y : ProtoConsFailure} {n : String} : x.toProto = .ok y →
      Says ord (.inconsistentChild x n) ⟨n, some (.inconsistentChild y)⟩
  | actions {x : ActionFailure} {n : String} :
      Says ord (.actionMismatch x n) ⟨n, some (.actionMismatch ⟨if x.subset then 0 else 1,
        [⟨x.left.system, ord x.left.actions, x.left.isInput⟩, ⟨x.right.system, ord x.right.actions, x.right.isInput⟩]⟩)⟩
  | empty {c n : String} : Says ord (.emptyChild c n) ⟨n, some (.emptySystem c)⟩
  | initial {n : String} : Says ord (.emptyInitial n) ⟨n, some (.noInitialState 0)⟩
  | state {x : RefReport} {y : ProtoState} {n : String} : x.state.toProto = .ok y →
      Says ord (.state n x) ⟨n, some (.refinementState ⟨if x.cuts then 1 else 0, x.action, some y⟩)⟩

end
end Reveaal
