import Verif.Spec.Semantics
import Verif.Model.LocalConsistency

/-!
# What it means for a system to be consistent

Three readings.  `ConsistentSet` speaks of single concrete states and is what a user would expect.
`RegionStrategy` speaks of sets of valuations that are treated alike, which is what a check on zones can
give at best.  `SymConsistent` speaks of the symbolic states (location and zone) of the search itself.
-/

namespace Reveaal
open ZoneLib
variable {F : Type} [ZoneLib F]

/-- A set of concrete states in which the system never gets stuck, whatever inputs it is given: no state
is at an inconsistent location, time and inputs do not lead out of the set, and in every state the system
can wait forever, or wait for some time and then perform an output, without leaving the set. -/
structure ConsistentSet (ts : TS F) (C : LocTree F → Val → Prop) : Prop where
  safe : ∀ {l v}, C l v → l.isInconsistent = false
  delay : ∀ {l v d}, C l v → TS.CanDelay l v d → C l (delay (dim F) v d)
  input : ∀ {l v i l' v'}, C l v → i ∈ ts.inputs → ts.Act l v i l' v' → C l' v'
  progress : ∀ {l v}, C l v → (∀ d : ℝ, 0 ≤ d → TS.CanDelay l v d) ∨
    ∃ d : ℝ, TS.CanDelay l v d ∧ ∃ o ∈ ts.outputs, ∃ l' v',
      ts.Act l (Reveaal.delay (dim F) v d) o l' v' ∧ C l' v'

/-- The system is consistent: it can start in such a set. -/
def TS.Consistent (ts : TS F) : Prop :=
  ∃ l, ts.initialLoc = .ok (some l) ∧ zeroVal ∈ InvSet l ∧ ∃ C, ConsistentSet ts C ∧ C l zeroVal

/-- Everything the transition leads to from the valuations `Z` (the time spent at its target included)
lies in one of the regions `R`. -/
def LeadsInto (R : LocTree F → Set Val → Prop) (Z : Set Val) (t : Transition F) : Prop :=
  ∃ Z', R t.target Z' ∧ SuccSet t Z ⊆ Z'

/-- A strategy on sets of valuations: a collection of regions that is never left by inputs, contains no
region at an inconsistent location, and in every region of which some valuation can wait forever or some
output stays in the collection. At the universal location everything is allowed. -/
structure RegionStrategy (ts : TS F) (R : LocTree F → Set Val → Prop) : Prop where
  init : ∀ {l}, ts.initialLoc = .ok (some l) → ∃ Z, R l Z ∧
    ∀ d : ℝ, 0 ≤ d → Reveaal.delay (dim F) zeroVal d ∈ InvSet l → Reveaal.delay (dim F) zeroVal d ∈ Z
  safe : ∀ {l Z}, R l Z → l.isInconsistent = false
  input : ∀ {l Z i trans t}, R l Z → l.isUniversal = false → i ∈ ts.inputs → ts.next l i = .ok trans →
    t ∈ trans → (SuccSet t Z).Nonempty → LeadsInto R Z t
  progress : ∀ {l Z}, R l Z → l.isUniversal = false → (∃ w ∈ Z, ∀ d : ℝ, 0 ≤ d →
    Reveaal.delay (dim F) w d ∈ Z) ∨ ∃ o ∈ ts.outputs, ∃ trans, ts.next l o = .ok trans ∧
      ∃ t ∈ trans, (SuccSet t Z).Nonempty ∧ LeadsInto R Z t

/-- In the symbolic state `s` the transition `t` can be taken by some valuation. -/
def State.Usable (s : State F) (t : Transition F) : Prop := (t.useTransition s).1 = true

/-- The search goes from the symbolic state `s` to `s'` by a transition labelled `a`. -/
def TS.SymStep (ts : TS F) (s : State F) (a : String) (s' : State F) : Prop :=
  ∃ trans, ts.next s.loc a = .ok trans ∧ ∃ t ∈ trans, s.Usable t ∧
    (t.useTransition s).2.extrapolate ts = .ok s'

/-- The symbolic states the search can get to. -/
inductive TS.SymReach (ts : TS F) : State F → Prop
  | init {s s'} (h : ts.initialState = .ok (some s)) (he : s.extrapolate ts = .ok s') : SymReach ts s'
  | step {s a s'} (h : SymReach ts s) (ha : a ∈ ts.inputs ∨ a ∈ ts.outputs) (hs : ts.SymStep s a s') :
      SymReach ts s'

/-- A collection of consistent symbolic states: at the universal location everything is allowed; no
state at an inconsistent location; every input leads into the collection; and the zone lets time pass
forever or some output leads into the collection. -/
structure SymConsistent (ts : TS F) (P : State F → Prop) : Prop where
  safe : ∀ {s}, P s → s.loc.isInconsistent = false
  input : ∀ {s i s'}, P s → s.loc.isUniversal = false → i ∈ ts.inputs → ts.SymStep s i s' → P s'
  progress : ∀ {s}, P s → s.loc.isUniversal = false → (∃ w ∈ den s.zone, ∀ d : ℝ, 0 ≤ d →
    Reveaal.delay (dim F) w d ∈ den s.zone) ∨ ∃ o ∈ ts.outputs, ∃ s', ts.SymStep s o s' ∧ P s'

/-- Wherever the search gets to and time cannot pass forever, at most one output transition can be
taken. -/
def TS.OneOutput (ts : TS F) : Prop :=
  ∀ s, ts.SymReach s → canDelayIndefinitely s.zone = false →
    (∀ o ∈ ts.outputs, ∀ trans, ts.next s.loc o = .ok trans →
      trans.Pairwise fun t t' => ¬ (s.Usable t ∧ s.Usable t')) ∧
    ∀ o ∈ ts.outputs, ∀ o' ∈ ts.outputs, o ≠ o' → ∀ trans trans', ts.next s.loc o = .ok trans →
      ts.next s.loc o' = .ok trans' → ∀ t ∈ trans, ∀ t' ∈ trans', ¬ (s.Usable t ∧ s.Usable t')

end Reveaal
