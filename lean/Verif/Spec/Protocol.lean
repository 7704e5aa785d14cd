import Verif.Model.Recipe
import Verif.Model.Transition

/-!
# Component instances of a system, as a client sees them
-/

namespace Reveaal

/-- At location `x` of the system described by a recipe, instance number `n` (counted from the left) is the component
`k`, and it is at its location `l`. -/
inductive Recipe.InstanceAt : Recipe → LocId → Nat → Component → String → Prop
  | component {k i l} : InstanceAt (.component k i) (.simple l) 0 k l
  | compositionLeft {p q a b n k l} : InstanceAt p a n k l → InstanceAt (.composition p q) (.composition a b) n k l
  | compositionRight {p q a b n k l} : InstanceAt q b n k l →
      InstanceAt (.composition p q) (.composition a b) (p.components.length + n) k l
  | conjunctionLeft {p q a b n k l} : InstanceAt p a n k l → InstanceAt (.conjunction p q) (.conjunction a b) n k l
  | conjunctionRight {p q a b n k l} : InstanceAt q b n k l →
      InstanceAt (.conjunction p q) (.conjunction a b) (p.components.length + n) k l
  | quotientLeft {p q c a b n k l} : InstanceAt p a n k l → InstanceAt (.quotient p q c) (.quotient a b) n k l
  | quotientRight {p q c a b n k l} : InstanceAt q b n k l →
      InstanceAt (.quotient p q c) (.quotient a b) (p.components.length + n) k l

/-- Only components, composition and conjunction. -/
def Recipe.NoQuotient : Recipe → Prop
  | .component _ _ => True
  | .composition p q | .conjunction p q => p.NoQuotient ∧ q.NoQuotient
  | .quotient _ _ _ => False

end Reveaal
