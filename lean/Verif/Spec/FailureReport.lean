import Verif.Model.Answer
import Verif.Spec.Report
import Verif.Spec.Consistency

/-!
# What a reported state says, and which states are reported
-/

namespace Reveaal
open ZoneLib

variable {F : Type} [ZoneLib F]

/-- The description `x` of a state says that component instance `n` of the query, which is `k`, is at `loc`, and has exactly
the valuations of the zone `z`. -/
structure SpecificState.Tells (insts : List Component) (n : Nat) (k : Component) (loc : Location) (z : F) (x : SpecificState) :
    Prop where
  instance_ : insts[n]? = some k
  location : loc ∈ k.locations
  located : x.locations = .component ⟨k.name, n⟩ loc.id
  zone : ∀ v, Valid (dim F) v → (v ∈ den z ↔ x.Holds insts v)

/-- Two different edges of the component leave the location with the action, and both can be taken at the valuation: their
guards hold and the invariants of their targets hold after the updates. -/
def Component.Clash (F : Type) [ZoneLib F] (k : Component) (loc : Location) (a : String) (v : Val) : Prop :=
  ∃ (i j : Nat) (e e' : Edge) (t t' : Transition F), i < j ∧ k.edges[i]? = some e ∧ k.edges[j]? = some e' ∧
    (e.source = loc.id ∧ e.action = a ∧ Transition.fromEdge k e = .ok t ∧ CanTake t v) ∧
    (e'.source = loc.id ∧ e'.action = a ∧ Transition.fromEdge k e' = .ok t' ∧ CanTake t' v)

/-- The symbolic states the search for ambiguities gets to; it starts with all valuations. -/
inductive TS.LooseReach (ts : TS F) : State F → Prop
  | init {s} (h : ts.initialState = .ok (some s)) : LooseReach ts ⟨s.loc, univ⟩
  | step {s a s'} (h : LooseReach ts s) (ha : a ∈ ts.inputs ∨ a ∈ ts.outputs) (hs : ts.SymStep s a s') : LooseReach ts s'

/-- The symbolic states the search for inconsistencies gets to from the initial one by inputs alone -/
inductive TS.InputReach (ts : TS F) : State F → Prop
  | init {s s'} (h : ts.initialState = .ok (some s)) (he : s.extrapolate ts = .ok s') : InputReach ts s'
  | step {s a s'} (h : InputReach ts s) (ha : a ∈ ts.inputs) (hs : ts.SymStep s a s') : InputReach ts s'

/-- What is told about an ambiguity: `x` is about component instance `n`, which is `k`, at `loc`; its state is one the search
gets to, and the action is called an input exactly if it is one; and somewhere in the location, inside its invariant, two
edges with the action can be taken. -/
structure DetReport.Told (insts : List Component) (ts : TS F) (f : DetFailure F) (x : DetReport) (n : Nat) (k : Component)
    (loc : Location) : Prop where
  state : x.state.Tells insts n k loc f.state.zone
  found : ts.LooseReach f.state ∧ LocTree.simple k.decls loc = .ok f.state.loc
  system : x.system = k.name
  kind : x.isInput = true ↔ ∃ e ∈ k.edges, e.sync = .input ∧ e.action = x.action
  clash : ∃ v ∈ InvSet f.state.loc, k.Clash F loc x.action v

/-- What is told about an inconsistency of component instance `n`, which is `k`: either it has no initial state; or the state
is one the search gets to from the initial state by inputs alone, and its location is inconsistent, or time cannot pass
forever in it and no output leads to a consistent state; or it is not deterministic. -/
inductive ConsReport.Told (insts : List Component) (ts : TS F) (n : Nat) (k : Component) : ConsFailure F → ConsReport → Prop
  | noInitialState : insts[n]? = some k → ts.initialState = .ok none → Told insts ts n k .noInitialState (.noInitialState k.name)
  | inconsistent {st : State F} {loc : Location} {y : SpecificState} : y.Tells insts n k loc st.zone →
      LocTree.simple k.decls loc = .ok st.loc → ts.InputReach st → loc.ty = .inconsistent →
      Told insts ts n k (.inconsistent st) (.inconsistentLoc k.name y)
  | inconsistentFrom {st : State F} {loc : Location} {y : SpecificState} : y.Tells insts n k loc st.zone →
      LocTree.simple k.decls loc = .ok st.loc → ts.InputReach st →
      (¬ ∃ w ∈ den st.zone, ∀ d : ℝ, 0 ≤ d → Reveaal.delay (dim F) w d ∈ den st.zone) →
      (∀ P, SymConsistent ts P → ∀ o ∈ ts.outputs, ∀ s', ts.SymStep st o s' → ¬ P s') →
      Told insts ts n k (.inconsistentFrom st) (.inconsistentFrom k.name y)
  | notDeterministic {f : DetFailure F} {x : DetReport} {loc : Location} : x.Told insts ts f n k loc →
      Told insts ts n k (.notDeterministic f) (.notDeterministic x)

end Reveaal
