import Verif.Model.SaveComponent
import Verif.Spec.Semantics

/-!
# What it means that two systems behave alike
-/

namespace Reveaal
open ZoneLib
variable {F : Type}

/-- The action orders list exactly the actions of the system, in any order. -/
def ActionOrder.For (ord : ActionOrder F) (s : Sys F) : Prop :=
  ∀ l, (ord l).1.Perm s.inputs ∧ (ord l).2.Perm s.outputs

variable [ZoneLib F]

/-- A relation between the locations of two systems such that related locations allow the same valuations, and each
system can match every action of the other, with the same clock values before and after. -/
structure TS.Bisim (A B : TS F) (R : LocTree F → LocTree F → Prop) : Prop where
  inv : ∀ l m, R l m → ∀ v, Valid (dim F) v → (v ∈ InvSet l ↔ v ∈ InvSet m)
  left : ∀ l m, R l m → ∀ v a l' v', Valid (dim F) v → A.Act l v a l' v' → ∃ m', B.Act m v a m' v' ∧ R l' m'
  right : ∀ l m, R l m → ∀ v a m' v', Valid (dim F) v → B.Act m v a m' v' → ∃ l', A.Act l v a l' v' ∧ R l' m'

/-- Two systems behave alike: their initial locations are related by such a relation. -/
def TS.Equivalent (A B : TS F) : Prop :=
  ∃ R, A.Bisim B R ∧ ∃ l m, A.initialLoc = .ok (some l) ∧ B.initialLoc = .ok (some m) ∧ R l m

/-- The location `loc` of a saved component stands for the location `l` of the system: it has the printed name of `l`,
is marked initial if `l` is, and its invariant holds of exactly the valuations that `l` allows. -/
structure ShowsLoc (d : Decls) (l : LocTree F) (loc : Location) : Prop where
  name : loc.id = l.id.display
  initial : loc.ty = if l.isInitial then .initial else .normal
  inv : ∀ v, Valid (dim F) v → (HoldsOpt d v loc.invariant ↔ v ∈ InvSet l)

/-- The edge `e` of a saved component stands for the transition `t` from `l`: same source and target, its guard holds
of exactly the valuations in the guard of `t`, and it assigns the same values to the same clocks. -/
structure ShowsEdge (d : Decls) (l : LocTree F) (t : Transition F) (e : Edge) : Prop where
  source : e.source = l.id.display
  target : e.target = t.target.id.display
  guard : ∀ v, Valid (dim F) v → (HoldsOpt d v e.guard ↔ v ∈ den t.guard)
  updates : List.Forall₂ (fun (u : CUpdate) (w : Update) => (w.var, u.clock) ∈ d.clocks ∧ w.expr = .int u.value)
    t.updates (e.update.getD [])

omit [ZoneLib F] in
/-- The actions that carry the given direction. -/
def Sys.actionsOf (s : Sys F) : SyncType → List String
  | .input => s.inputs
  | .output => s.outputs

omit [ZoneLib F] in
/-- Every component of the system has at most one initial location. -/
def Sys.OneInitial : Sys F → Prop
  | .comp c => ∀ p ∈ c.locations, ∀ q ∈ c.locations, p.2.ty = .initial → q.2.ty = .initial → p.2 = q.2
  | .composition l r _ _ _ _ _ | .conjunction l r _ _ | .quotient l r _ _ _ _ => l.OneInitial ∧ r.OneInitial

end Reveaal
