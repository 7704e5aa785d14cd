import Verif.Model.ClockReduction

/-!
# The system expression behind a system
-/

namespace Reveaal

/-- The same system without the ids users may give to components -/
def SysExpr.anonymous : SysExpr → SysExpr
  | .composition l r => .composition l.anonymous r.anonymous
  | .conjunction l r => .conjunction l.anonymous r.anonymous
  | .quotient l r => .quotient l.anonymous r.anonymous
  | .component name _ => .component name none

end Reveaal
