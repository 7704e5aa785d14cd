import Verif.Spec.Semantics

/-!
# What refinement means, one pair of concrete states at a time

`S` refines `T` if some relation between their concrete states relates the initial states and is kept:
outputs of `S` are outputs `T` can produce too, inputs `T` accepts are accepted by `S`, and when `S` lets
time pass so can `T`.  An action the other side does not know is ignored by it: it stays where it is.
-/

namespace Reveaal
open ZoneLib
variable {F : Type} [ZoneLib F]

/-- A relation between concrete states of `S` and `T` that is kept by outputs, inputs and delays. -/
structure IsRefinement (S T : TS F) (R : LocTree F → Val → LocTree F → Val → Prop) : Prop where
  output : ∀ {l v m w o l' v'}, R l v m w → o ∈ S.outputs → S.Act l v o l' v' →
    (o ∈ T.outputs → ∃ m' w', T.Act m w o m' w' ∧ R l' v' m' w') ∧ (o ∉ T.outputs → R l' v' m w)
  input : ∀ {l v m w i m' w'}, R l v m w → i ∈ T.inputs → T.Act m w i m' w' →
    (i ∈ S.inputs → ∃ l' v', S.Act l v i l' v' ∧ R l' v' m' w') ∧ (i ∉ S.inputs → R l v m' w')
  delay : ∀ {l v m w d}, R l v m w → TS.CanDelay l v d →
    TS.CanDelay m w d ∧ R l (delay (dim F) v d) m (delay (dim F) w d)

/-- The alphabets fit: no action is an input of one side and an output of the other, the inputs of `S`
are inputs of `T`, and the outputs of `T` are outputs of `S`. -/
structure AlphabetsFit (S T : TS F) : Prop where
  inOut : ∀ a ∈ S.inputs, a ∉ T.outputs
  outIn : ∀ a ∈ S.outputs, a ∉ T.inputs
  inputs : ∀ a ∈ S.inputs, a ∈ T.inputs
  outputs : ∀ a ∈ T.outputs, a ∈ S.outputs

/-- `S` refines `T`: the alphabets fit, and either both have no initial location, or both have one and the
initial states are related (if `S` has an initial state at all, that is, if the invariant of its initial
location allows clocks to be zero). -/
structure Refines (S T : TS F) : Prop where
  alphabets : AlphabetsFit S T
  states : (S.initialLoc = .ok none ∧ T.initialLoc = .ok none) ∨
    ∃ l m, S.initialLoc = .ok (some l) ∧ T.initialLoc = .ok (some m) ∧
      (zeroVal ∈ InvSet l → ∃ R, IsRefinement S T R ∧ R l zeroVal m zeroVal)

/-- The invariant of a location is convex in time: it holds between any two delays at which it holds. -/
def TimeConvex (l : LocTree F) : Prop :=
  ∀ v d e, Valid (dim F) v → v ∈ InvSet l → 0 ≤ d → d ≤ e → delay (dim F) v e ∈ InvSet l →
    delay (dim F) v d ∈ InvSet l

end Reveaal
