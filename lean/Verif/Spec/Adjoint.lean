import Verif.Spec.Refinement
import Verif.Spec.Quotient
import Verif.Spec.System

/-!
# What a quotient is for

`T \\ S` is meant to answer the question: which systems `X`, put in parallel with `S`, refine `T`?
The setting in which the question is asked, and what is meant by a system that never gets stuck.
-/

namespace Reveaal
open ZoneLib
variable {F : Type} [ZoneLib F]

/-- In every state it gets into, the system can wait forever, or wait for some time and then perform an
output. -/
def TS.NeverStuck (ts : TS F) : Prop :=
  ∀ l v, ts.Reach l v → (∀ d : ℝ, 0 ≤ d → TS.CanDelay l v d) ∨
    ∃ d : ℝ, TS.CanDelay l v d ∧ ∃ o ∈ ts.outputs, ∃ l' v', ts.Act l (delay (dim F) v d) o l' v'

/-- No transition of the system assigns one clock twice with different values. -/
def Sys.CalmUpdates (s : Sys F) : Prop :=
  ∀ l a ts, s.IsLoc l → s.next l a = .ok ts → ∀ t ∈ ts, NoConflict t.updates

/-- `Q` is the quotient `T \\ S` and `P` the composition `S || X`, made of systems the engine accepts.
The clocks are kept apart, no action is input and output of one operand, and the input the quotient adds
for itself is known to nobody else. -/
structure Sys.Adjoint (T S X Q P : Sys F) (clock : Nat) : Prop where
  acceptedT : T.Accepted
  acceptedS : S.Accepted
  acceptedX : X.Accepted
  clockPos : 0 < clock
  clockDim : clock < dim F
  quotient : Sys.newQuotientUnchecked T S clock = .ok Q
  composition : Sys.newComposition S X = .ok P
  clocksTS : T.DisjointClocks S
  clocksSX : S.DisjointClocks X
  inOutS : ∀ a ∈ S.inputs, a ∉ S.outputs
  inOutX : ∀ a ∈ X.inputs, a ∉ X.outputs
  calmT : T.CalmUpdates
  calmS : S.CalmUpdates
  own : ∀ a ∈ Q.inputs, a ∉ T.inputs → a ∉ S.outputs → T.hasAction a = false ∧ S.hasAction a = false ∧
    X.hasAction a = false
  initT : ∃ l, T.initialLoc = .ok (some l)
  initS : ∃ l, S.initialLoc = .ok (some l) ∧ zeroVal ∈ InvSet l

end Reveaal
