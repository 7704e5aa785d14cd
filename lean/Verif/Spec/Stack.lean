import Verif.Model.Refine

/-!
# A stack of pending state pairs, and what may be asked of it
-/

namespace Reveaal
open ZoneLib
variable {F : Type} [ZoneLib F]

/-- The operations on the waiting list. -/
inductive WaitOp (F : Type) where
  | put (p : StatePair F)
  | pop
  | has (p : StatePair F)
  | isEmpty

/-- What an operation answers. -/
inductive WaitOut (F : Type) where
  | unit
  | popped (p : Option (StatePair F))
  | answer (b : Bool)

/-- The pair `p` is covered by `q`: same locations, and every valuation of `p` is one of `q`. -/
def StatePair.CoveredBy (p q : StatePair F) : Prop :=
  p.l1.id = q.l1.id ∧ p.l2.id = q.l2.id ∧ den p.zone ⊆ den q.zone

/-- One operation on a plain stack of pending pairs, the latest first. -/
inductive StackStep : List (StatePair F) → WaitOp F → WaitOut F → List (StatePair F) → Prop
  | put (p : StatePair F) (s : List (StatePair F)) : StackStep s (.put p) .unit (p :: s)
  | pop (p : StatePair F) (s : List (StatePair F)) : StackStep (p :: s) .pop (.popped (some p)) s
  | popNone : StackStep [] .pop (.popped none) []
  | has (p : StatePair F) (s : List (StatePair F)) (b : Bool)
      (hb : b = true ↔ ∃ q ∈ s, p.CoveredBy q) : StackStep s (.has p) (.answer b) s
  | isEmpty (s : List (StatePair F)) (b : Bool) (hb : b = true ↔ s = []) :
      StackStep s .isEmpty (.answer b) s

/-- A history of operations on a plain stack. -/
inductive StackRun : List (StatePair F) → List (WaitOp F) → List (WaitOut F) → Prop
  | nil (s : List (StatePair F)) : StackRun s [] []
  | cons {s s' : List (StatePair F)} {op : WaitOp F} {out : WaitOut F} {ops : List (WaitOp F)}
      {outs : List (WaitOut F)} (h : StackStep s op out s') (hr : StackRun s' ops outs) :
      StackRun s (op :: ops) (out :: outs)

end Reveaal
