import Verif.Model.Transition

/-!
# What a transition means, in terms of single valuations
-/

namespace Reveaal
open ZoneLib

/-- Perform assignments one after the other. -/
noncomputable def runUpdates : List CUpdate → Val → Val
  | [], v => v
  | u :: us, v => runUpdates us (assign v u.clock (u.value : ℝ))

variable {F : Type} [ZoneLib F]

/-- The valuations allowed in a location: those of its invariant, all of them if it has none. -/
def InvSet (l : LocTree F) : Set Val := {v | ∀ i, l.inv = some i → v ∈ den i}

/-- The updates assign non-negative values to real clocks of the system. -/
def UpdatesOk (us : List CUpdate) (n : Nat) : Prop :=
  ∀ u ∈ us, 0 < u.clock ∧ u.clock < n ∧ 0 ≤ u.value

/-- No clock is assigned two different values. -/
def NoConflict (us : List CUpdate) : Prop :=
  ∀ u ∈ us, ∀ u' ∈ us, u.clock = u'.clock → u.value = u'.value

instance (us : List CUpdate) (n : Nat) : Decidable (UpdatesOk us n) := by
  unfold UpdatesOk; infer_instance

instance (us : List CUpdate) : Decidable (NoConflict us) := by
  unfold NoConflict; infer_instance

/-- A valuation can take the transition: the guard holds and after the updates the target invariant
holds. -/
def CanTake (t : Transition F) (v : Val) : Prop :=
  v ∈ den t.guard ∧ runUpdates t.updates v ∈ InvSet t.target

/-- The valuations reached from a set by taking a transition and then letting time pass. -/
def SuccSet (t : Transition F) (z : Set Val) : Set Val :=
  {w | ∃ v ∈ z, v ∈ den t.guard ∧ ∃ d : ℝ, 0 ≤ d ∧
      w = delay (dim F) (runUpdates t.updates v) d ∧ w ∈ InvSet t.target}

/-- An invariant is an upper bound on elapsed time: if it holds after some delay it held before. -/
def PastClosed (l : LocTree F) : Prop :=
  ∀ v d, Valid (dim F) v → 0 ≤ d → delay (dim F) v d ∈ InvSet l → v ∈ InvSet l

end Reveaal
