import Verif.Model.Expr
import Verif.Model.Recipe

/-!
# Expressions that can be written as text

Guards and updates are written without parentheses, and read with this rule: `*`, `/` and `%` bind more tightly than `+` and
`-`, `||` binds more tightly than `&&`, and every operator groups to the left.
-/

namespace Reveaal

/-- A name that can be written in a guard: a letter followed by letters, digits and underscores (ASCII) -/
def IsName (s : String) : Prop :=
  ∃ c cs, s.toList = c :: cs ∧ c.isAlpha = true ∧ ∀ d ∈ cs, (d.isAlphanum || d == '_') = true

/-- The expression has its meaning without parentheses; only operators of strength `p` or more may be at its top (sums 1,
products 2).  Its numbers are the ones that can be written, from 0 to the largest 32 bit integer. -/
def Arith.Flat : Nat → Arith → Prop
  | p, .add l r | p, .dif l r => p ≤ 1 ∧ l.Flat 1 ∧ r.Flat 2
  | p, .mul l r | p, .div l r | p, .mod l r => p ≤ 2 ∧ l.Flat 2 ∧ r.Flat 3
  | _, .int c => 0 ≤ c ∧ c ≤ 2147483647
  | _, .var n => IsName n
  | _, .clock _ => False

/-- The same for guards (conjunctions 3, disjunctions 4) -/
def BoolE.Flat : Nat → BoolE → Prop
  | p, .and l r => p ≤ 3 ∧ l.Flat 3 ∧ r.Flat 4
  | p, .or l r => p ≤ 4 ∧ l.Flat 4 ∧ r.Flat 5
  | _, .le l r | _, .ge l r | _, .lt l r | _, .gt l r | _, .eq l r => l.Flat 1 ∧ r.Flat 1
  | _, .bool _ => True

/-- A special id that can be written between brackets: not empty, without brackets, and not beginning with a
blank or line break -/
def IsSpecialId (s : String) : Prop :=
  ∃ c cs, s.toList = c :: cs ∧ c ≠ ' ' ∧ c ≠ '\t' ∧ c ≠ '\n' ∧ ¬ ['\r', '\n'] <+: c :: cs ∧ '[' ∉ c :: cs ∧ ']' ∉ c :: cs

/-- All component names and special ids of the system expression can be written. -/
def SysExpr.Writable : SysExpr → Prop
  | .composition l r | .conjunction l r | .quotient l r => l.Writable ∧ r.Writable
  | .component name none => IsName name
  | .component name (some id) => IsName name ∧ IsSpecialId id

end Reveaal
