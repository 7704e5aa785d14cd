import Verif.Spec.Semantics

/-!
# Avoiding bad locations

What it means, for a system with inputs `ins` and outputs `outs`, that it can keep out of inconsistent locations.
-/

namespace Reveaal
open ZoneLib
variable {F : Type} [ZoneLib F]

namespace TS

/-- A set of states in which a system can stay without relying on its environment: invariants hold, no location is
inconsistent, no input and no passing of time leaves the set, and from every state either time can pass forever or
an output that stays in the set becomes possible. -/
structure SafeSet (ts : TS F) (ins outs : List String) (S : LocTree F → Val → Prop) : Prop where
  valid : ∀ l v, S l v → Valid (dim F) v ∧ v ∈ InvSet l
  consistent : ∀ l v, S l v → l.isInconsistent = false
  input : ∀ l v, S l v → ∀ a ∈ ins, ∀ l' v', ts.Act l v a l' v' → S l' v'
  time : ∀ l v, S l v → ∀ d, CanDelay l v d → S l (delay (dim F) v d)
  progress : ∀ l v, S l v → (∀ d : ℝ, 0 ≤ d → CanDelay l v d) ∨
    ∃ d, CanDelay l v d ∧ ∃ a ∈ outs, ∃ l' v', ts.Act l (delay (dim F) v d) a l' v' ∧ S l' v'

/-- The states a system can get into without leaving `S`. -/
inductive ReachWithin (ts : TS F) (S : LocTree F → Val → Prop) : LocTree F → Val → Prop
  | init {l} (h : ts.initialLoc = .ok (some l)) (hS : S l zeroVal) : ReachWithin ts S l zeroVal
  | act {l v a l' v'} (h : ReachWithin ts S l v) (hs : ts.Act l v a l' v') (hS : S l' v') : ReachWithin ts S l' v'
  | delay {l v d} (h : ReachWithin ts S l v) (hd : CanDelay l v d) (hS : S l (delay (dim F) v d)) :
      ReachWithin ts S l (delay (dim F) v d)

end TS
end Reveaal
