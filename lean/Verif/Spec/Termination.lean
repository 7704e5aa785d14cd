import Verif.Model.Expr

/-!
# Computations that end

The model runs searches with a bounded number of steps and says `Fail.fuel` when they are used up.  The search of
the code ends if some number of steps is enough.
-/

namespace Reveaal

/-- With enough steps the computation ends, and what it comes to does not depend on how many more there are. -/
def Terminates {α : Type} (f : Nat → Res α) : Prop :=
  ∃ N r, r ≠ .error .fuel ∧ ∀ n, N ≤ n → f n = r

/-- It ends with an answer: it neither runs forever nor crashes nor reports an error. -/
def Decided {α : Type} (f : Nat → Res α) : Prop := ∃ N a, ∀ n, N ≤ n → f n = .ok a

end Reveaal
