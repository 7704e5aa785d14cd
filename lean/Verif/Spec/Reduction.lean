import Verif.Spec.SameMeaning
import Verif.Spec.Semantics
import Verif.Spec.Recipe

/-!
# Systems that cannot be told apart, and clocks that stay the same
-/

namespace Reveaal
open ZoneLib
variable {F G : Type} [ZoneLib F] [ZoneLib G]

/-- Two systems cannot be told apart, given a relation `V` between their clock values: they have the same inputs and
outputs; they start at related locations, or both nowhere; from related locations and values they allow the same
delays and actions and get to related locations and values; related locations have the same name and type, and at
related locations and values the same actions can be performed by two different transitions. -/
structure TS.Indistinguishable (A : TS F) (B : TS G) (V : Val → Val → Prop) : Prop where
  inputs : B.inputs = A.inputs
  outputs : B.outputs = A.outputs
  related : ∃ R, A.BisimUpTo B V R ∧ ((A.initialLoc = .ok none ∧ B.initialLoc = .ok none) ∨
      ∃ l m, A.initialLoc = .ok (some l) ∧ B.initialLoc = .ok (some m) ∧ R l m) ∧
    ∀ l m, R l m → m.id = l.id ∧ m.ty = l.ty ∧ ∀ v w, Valid (dim F) v → Valid (dim G) w → V v w → (A.DetAt l v ↔ B.DetAt m w)

/-- The clocks that two recipes of the same shape have in common have the same values: the clocks of the same name in
corresponding components, and the clocks of corresponding quotients. -/
def Recipe.SameValues (r r' : Recipe) (v w : Val) : Prop :=
  (∀ p ∈ r.components.zip r'.components, AgreeOn p.1.decls p.2.decls v w) ∧
  ∀ p ∈ r.quotientClocks.zip r'.quotientClocks, v p.1 = w p.2

end Reveaal
