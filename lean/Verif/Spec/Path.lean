import Verif.Spec.Semantics
import Verif.Model.Decision

/-!
# What it means that a path is an execution
-/

namespace Reveaal
open ZoneLib
variable {F : Type} [ZoneLib F]

/-- The transitions of `path` lead from location `l` to location `l'` in the system. -/
inductive TS.Follows (ts : TS F) : LocTree F → List (Transition F × String) → LocTree F → Prop
  | nil (l : LocTree F) : Follows ts l [] l
  | cons {l l' : LocTree F} {t : Transition F} {a : String} {trans : List (Transition F)}
      {path : List (Transition F × String)} (ha : ts.hasAction a = true) (hn : ts.next l a = .ok trans)
      (ht : t ∈ trans) (h : Follows ts t.target path l') : Follows ts l ((t, a) :: path) l'

/-- Timed execution of the transitions of `path` from `(l, v)` to `(l', v')`: before every transition, and
at the end, some time may pass. -/
inductive TS.RunVia (ts : TS F) : LocTree F → Val → List (Transition F × String) → LocTree F → Val → Prop
  | done {l : LocTree F} {v : Val} {d : ℝ} (hd : TS.CanDelay l v d) :
      RunVia ts l v [] l (delay (dim F) v d)
  | step {l l' : LocTree F} {v v' : Val} {d : ℝ} {t : Transition F} {a : String}
      {trans : List (Transition F)} {path : List (Transition F × String)} (hd : TS.CanDelay l v d)
      (ha : ts.hasAction a = true) (hn : ts.next l a = .ok trans) (ht : t ∈ trans)
      (hc : CanTake t (delay (dim F) v d))
      (h : RunVia ts t.target (runUpdates t.updates (delay (dim F) v d)) path l' v') :
      RunVia ts l v ((t, a) :: path) l' v'

/-- The decisions are the step by step replay of `path` from location `l` with the valuations `z`: each
shows its source location, the valuations that can take the transition (at least one), the action, the
transition, and as destination what is reached by it; the next step starts from everything that is
reached from `z`. -/
inductive Replays : LocTree F → Set Val → List (Transition F × String) → List (Decision F) → Prop
  | nil (l : LocTree F) (z : Set Val) : Replays l z [] []
  | cons {l : LocTree F} {z : Set Val} {t : Transition F} {a : String} {d : Decision F}
      {path : List (Transition F × String)} {ds : List (Decision F)}
      (hsome : ∃ v ∈ z, CanTake t v)
      (hloc : d.state.loc = l) (hsrc : den d.state.zone = {v | v ∈ z ∧ CanTake t v}) (hact : d.action = a)
      (htr : d.transition = some t) (hdst : d.nextState.loc = t.target)
      (hdz : den d.nextState.zone = SuccSet t {v | v ∈ z ∧ CanTake t v})
      (h : Replays t.target (SuccSet t z) path ds) : Replays l z ((t, a) :: path) (d :: ds)

end Reveaal
