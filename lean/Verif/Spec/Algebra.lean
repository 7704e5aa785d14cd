import Verif.Model.Recipe
import Verif.Spec.Refinement
import Verif.Spec.Consistency

/-!
# When two systems are the same for a user

Two systems over the same clocks are the same if they have the same inputs and the same outputs and there is a
correspondence between their locations such that corresponding locations allow the same clock values, are of the same
type, every move of one system is matched by a move of the other with the same action and the same clock values before
and after, and where one has a choice between transitions so has the other.
-/

namespace Reveaal
open ZoneLib
variable {F : Type} [ZoneLib F]

/-- `R` is such a correspondence between the locations of `A` and of `B`. -/
structure TS.Corresponds (A B : TS F) (R : LocTree F → LocTree F → Prop) : Prop where
  inv : ∀ {l m}, R l m → ∀ v, (v ∈ InvSet l ↔ v ∈ InvSet m)
  ty : ∀ {l m}, R l m → l.ty = m.ty
  left : ∀ {l m v a l' v'}, R l m → A.Act l v a l' v' → ∃ m', B.Act m v a m' v' ∧ R l' m'
  right : ∀ {l m v a m' v'}, R l m → B.Act m v a m' v' → ∃ l', A.Act l v a l' v' ∧ R l' m'
  det : ∀ {l m}, R l m → ∀ v, (A.DetAt l v ↔ B.DetAt m v)

/-- The two systems are the same: same alphabets, and they start in corresponding locations, or neither has an initial
location. -/
structure TS.Same (A B : TS F) : Prop where
  inputs : ∀ a, a ∈ A.inputs ↔ a ∈ B.inputs
  outputs : ∀ a, a ∈ A.outputs ↔ a ∈ B.outputs
  states : ∃ R, A.Corresponds B R ∧ ((A.initialLoc = .ok none ∧ B.initialLoc = .ok none) ∨
    ∃ l m, A.initialLoc = .ok (some l) ∧ B.initialLoc = .ok (some m) ∧ R l m)

/-- A user cannot tell the two systems apart by what is true of them: they have the same inputs and outputs, refine the
same systems, are refined by the same systems, can wait as long at the start, and one is consistent or deterministic exactly if the other is. -/
structure Sys.SameTruths (s s' : Sys F) : Prop where
  inputs : ∀ a, a ∈ s.inputs ↔ a ∈ s'.inputs
  outputs : ∀ a, a ∈ s.outputs ↔ a ∈ s'.outputs
  refines : ∀ t : Sys F, t.Accepted → (Refines s.ts t.ts ↔ Refines s'.ts t.ts)
  refined : ∀ t : Sys F, t.Accepted → (Refines t.ts s.ts ↔ Refines t.ts s'.ts)
  consistent : s.ts.Consistent ↔ s'.ts.Consistent
  deterministic : s.ts.Deterministic ↔ s'.ts.Deterministic
  starts : (∃ l, s.ts.initialLoc = .ok (some l)) ↔ ∃ l, s'.ts.initialLoc = .ok (some l)
  waits : ∀ d, (∃ l, s.ts.initialLoc = .ok (some l) ∧ TS.CanDelay l zeroVal d) ↔
    ∃ l, s'.ts.initialLoc = .ok (some l) ∧ TS.CanDelay l zeroVal d

/-- The expression has no quotient in it. -/
def SysExpr.NoQuotient : SysExpr → Prop
  | .composition l r | .conjunction l r => l.NoQuotient ∧ r.NoQuotient
  | .quotient _ _ => False
  | .component _ _ => True

end Reveaal
