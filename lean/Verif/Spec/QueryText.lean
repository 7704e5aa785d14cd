import Verif.Spec.Text
import Verif.Model.QueryText

/-!
# Queries that can be written as text
-/

namespace Reveaal

/-- A variable of a component, `A.x` or `A[1].x`, that can be written -/
def CompVar.Writable (v : CompVar) : Prop := (SysExpr.component v.component v.specialId).Writable ∧ IsName v.name

/-- Sums and differences grouped to the left, of variables and of numbers from 0 to the largest 32 bit integer -/
def Operand.Writable : Operand → Prop
  | .number n => 0 ≤ n ∧ n ≤ 2147483647
  | .clock v => v.Writable
  | .difference l r | .sum l r => l.Writable ∧ (match r with
    | .number n => 0 ≤ n ∧ n ≤ 2147483647
    | .clock v => v.Writable
    | _ => False)

/-- The expression does not begin with a component whose name begins with `not`. -/
def Operand.NotNot : Operand → Prop
  | .number _ => True
  | .clock v => ¬ ['n', 'o', 't'] <+: v.component.toList
  | .difference l _ | .sum l _ => l.NotNot

/-- Nestings of conjunctions, comparisons, locations and truth values -/
inductive StateExpr.Writable : StateExpr → Prop where
  | cmp (op : Cmp) {l r : Operand} (hl : l.Writable) (hn : l.NotNot) (hr : r.Writable) : Writable (.cmp op l r)
  | and {es : List StateExpr} (hlen : 2 ≤ es.length) (h : ∀ e ∈ es, Writable e) : Writable (.and es)
  | location {v : CompVar} (h : v.Writable) (hn : ¬ ['n', 'o', 't'] <+: v.component.toList) : Writable (.location v)
  | bool (b : Bool) : Writable (.bool b)

/-- The names can be written, the component has no name it is to be saved under, and states are nestings of conjunctions. -/
def QueryExpr.Writable : QueryExpr → Prop
  | .refinement l r => l.Writable ∧ r.Writable
  | .consistency s | .implementation s | .determinism s | .specification s => s.Writable
  | .reachability s start goal => s.Writable ∧ (∀ e ∈ start, e.Writable) ∧ goal.Writable
  | .getComponent s | .prune s | .bisimMinim s => s.system.Writable ∧ s.name = none

end Reveaal
