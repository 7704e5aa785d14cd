import Verif.Model.Answer

/-!
# What a reported set of actions says
-/

namespace Reveaal
variable {F : Type}

/-- The set is named after the system `s`; it is called its inputs or its outputs, and it is that set. -/
structure ActionSet.Tells (x : ActionSet) (s : Sys F) (input : Bool) : Prop where
  system : x.system = s.name
  kind : x.isInput = input
  actions : ∀ a, a ∈ x.actions ↔ a ∈ if input then s.inputs else s.outputs

/-- The two sets are reported to overlap, and do. -/
def ActionFailure.Overlap (x : ActionFailure) : Prop :=
  x.subset = false ∧ ∃ a ∈ x.left.actions, a ∈ x.right.actions

/-- The first set is reported not to be part of the second, and it is not. -/
def ActionFailure.Excess (x : ActionFailure) : Prop :=
  x.subset = true ∧ ∃ a ∈ x.left.actions, a ∉ x.right.actions

end Reveaal
