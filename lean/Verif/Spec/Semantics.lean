import Verif.Spec.Step
import Verif.Spec.System

/-!
# Timed behaviour of a system, one valuation at a time

A concrete state is a location and a clock valuation.  A system starts with all clocks zero, takes
actions, and lets time pass as long as the invariant of its location holds.
-/

namespace Reveaal
open ZoneLib
variable {F : Type} [ZoneLib F]

/-- All clocks zero. -/
def zeroVal : Val := fun _ => 0

namespace TS

/-- From `(l, v)` the action `a` leads to `(l', v')`. -/
def Act (ts : TS F) (l : LocTree F) (v : Val) (a : String) (l' : LocTree F) (v' : Val) : Prop :=
  ts.hasAction a = true ∧ ∃ trans, ts.next l a = .ok trans ∧ ∃ t ∈ trans, CanTake t v ∧ l' = t.target ∧
    v' = runUpdates t.updates v

/-- In location `l` the time `d` can pass: the invariant holds all along. -/
def CanDelay (l : LocTree F) (v : Val) (d : ℝ) : Prop :=
  0 ≤ d ∧ ∀ d', 0 ≤ d' → d' ≤ d → delay (dim F) v d' ∈ InvSet l

/-- The concrete states a system can get into. -/
inductive Reach (ts : TS F) : LocTree F → Val → Prop
  | init {l} (h : ts.initialLoc = .ok (some l)) (hv : zeroVal ∈ InvSet l) : Reach ts l zeroVal
  | act {l v a l' v'} (h : Reach ts l v) (hs : ts.Act l v a l' v') : Reach ts l' v'
  | delay {l v d} (h : Reach ts l v) (hd : CanDelay l v d) : Reach ts l (delay (dim F) v d)

/-- The concrete states that can be reached from `(l₀, v₀)` by performing actions and letting time
pass. -/
inductive RunFrom (ts : TS F) (l₀ : LocTree F) (v₀ : Val) : LocTree F → Val → Prop
  | refl : RunFrom ts l₀ v₀ l₀ v₀
  | act {l v a l' v'} (h : RunFrom ts l₀ v₀ l v) (hs : ts.Act l v a l' v') : RunFrom ts l₀ v₀ l' v'
  | delay {l v d} (h : RunFrom ts l₀ v₀ l v) (hd : CanDelay l v d) :
      RunFrom ts l₀ v₀ l (delay (dim F) v d)

/-- In this concrete state no action can be performed by two different transitions. -/
def DetAt (ts : TS F) (l : LocTree F) (v : Val) : Prop :=
  ∀ a trans, ts.hasAction a = true → ts.next l a = .ok trans →
    trans.Pairwise fun t t' => ¬ (CanTake t v ∧ CanTake t' v)

/-- No action can be performed by two different transitions, in any concrete state the system gets
into. -/
def Deterministic (ts : TS F) : Prop := ∀ l v, ts.Reach l v → ts.DetAt l v

end TS

/-- The locations that can be reached through transitions, whether or not they can be taken. -/
inductive Sys.Linked (s : Sys F) : LocTree F → Prop
  | init {l} (h : s.ts.initialLoc = .ok (some l)) : Linked s l
  | step {l a trans t} (h : Linked s l) (ha : s.ts.hasAction a = true) (hn : s.ts.next l a = .ok trans)
      (ht : t ∈ trans) : Linked s t.target

/-- Two systems use different clocks. -/
def Sys.DisjointClocks (l r : Sys F) : Prop := ∀ i ∈ l.clocks, i ∉ r.clocks

/-- What one participant of a product does when the product performs `a` and goes from valuation `v`
to `v'`: if it knows the action it performs it, and its clocks end as after its own move; otherwise it
stays where it is, with its clocks unchanged. -/
def Sys.Participates (s : Sys F) (loc : LocTree F) (v : Val) (a : String) (loc' : LocTree F) (v' : Val) :
    Prop :=
  (s.hasAction a = true → ∃ v1, s.ts.Act loc v a loc' v1 ∧ ∀ i ∈ s.clocks, v' i = v1 i) ∧
  (s.hasAction a = false → loc' = loc ∧ v ∈ InvSet loc ∧ ∀ i ∈ s.clocks, v' i = v i)

end Reveaal
