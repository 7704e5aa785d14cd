import Verif.Model.Response
import Verif.Spec.Report
import Verif.Spec.Path

/-!
# How a client reads a path
-/

namespace Reveaal
open ZoneLib
variable {F : Type} [ZoneLib F]

/-- The name `e` stands for an edge of a component instance of the recipe, which leaves the current location of the
instance and carries the action; `te` is what the edge does. -/
def NamesEdge (r : Recipe) (base : Nat) (x : LocId) (a : String) (e : SpecificEdge) (te : Transition F) : Prop :=
  ∃ n k l edge, r.InstanceAt x n k l ∧ e.comp = ⟨k.name, base + n⟩ ∧ edge ∈ k.edges ∧ edge.id = e.edge ∧ edge.source = l ∧
    edge.action = a ∧ (Transition.fromEdge k edge : Res (Transition F)) = .ok te

/-- A transition is taken exactly when the guards of the edges hold, and does all their updates. -/
def TakesAll (t : Transition F) (tes : List (Transition F)) : Prop :=
  (∀ v, v ∈ den t.guard ↔ Valid (dim F) v ∧ ∀ te ∈ tes, v ∈ den te.guard) ∧
    t.updates = tes.flatMap (·.updates)

/-- The description says that the component instances of the query are where location `l` has them, and its constraints
hold for the clock values `v`. -/
def SpecificState.Shows (r : Recipe) (l : LocId) (v : Val) (x : SpecificState) : Prop :=
  LocatedAs r 0 l x.locations ∧ x.Holds r.components v

/-- A timed execution from `(l, v)` to `(l', v')` as the list of descriptions tells it.  Before every step, and at the end,
some time may pass.  Each step has the action that is told, and takes the edges that are named (unless a quotient is
involved, when the names are names of edges all the same); the source that is told shows the state right before it and
the destination the state right after it. -/
inductive TS.ToldRun (ts : TS F) (r : Recipe) : LocTree F → Val → List SpecificDecision → LocTree F → Val → Prop
  | done {l : LocTree F} {v : Val} {d : ℝ} (hd : TS.CanDelay l v d) : ToldRun ts r l v [] l (delay (dim F) v d)
  | step {l l' : LocTree F} {v v' : Val} {d : ℝ} {t : Transition F} {trans tes : List (Transition F)}
      {x : SpecificDecision} {path : List SpecificDecision} (hd : TS.CanDelay l v d)
      (ha : ts.hasAction x.action = true) (hn : ts.next l x.action = .ok trans) (ht : t ∈ trans)
      (hc : CanTake t (delay (dim F) v d)) (hsrc : x.source.Shows r l.id (delay (dim F) v d))
      (hnames : List.Forall₂ (NamesEdge r 0 l.id x.action) x.edges tes) (htakes : r.NoQuotient → TakesAll t tes)
      (hdst : x.destination.Shows r t.target.id (runUpdates t.updates (delay (dim F) v d)))
      (h : ToldRun ts r t.target (runUpdates t.updates (delay (dim F) v d)) path l' v') :
      ToldRun ts r l v (x :: path) l' v'

/-- The description says of a decision which states it leads from and to, and with which valuations exactly. -/
structure SpecificDecision.Tells (r : Recipe) (d : Decision F) (x : SpecificDecision) : Prop where
  action : x.action = d.action
  source : LocatedAs r 0 d.state.loc.id x.source.locations
  destination : LocatedAs r 0 d.nextState.loc.id x.destination.locations
  before : ∀ v, Valid (dim F) v → (v ∈ den d.state.zone ↔ x.source.Holds r.components v)
  after : ∀ v, Valid (dim F) v → (v ∈ den d.nextState.zone ↔ x.destination.Holds r.components v)

end Reveaal
