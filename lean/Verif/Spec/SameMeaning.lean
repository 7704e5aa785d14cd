import Verif.Spec.Guard
import Verif.Spec.Save

/-!
# Components with the same meaning

The clocks of a component are known by name; their indices are an internal matter.
-/

namespace Reveaal

/-- Two valuations agree on the clocks of two declarations: clocks with the same name have the same value. -/
def AgreeOn (d d' : Decls) (v v' : Val) : Prop :=
  ∀ n i i', d.clocks.lookup n = some i → d'.clocks.lookup n = some i' → v i = v' i'

/-- Two optional guards hold in the same valuations. -/
def SameGuard (d d' : Decls) (g g' : Option BoolE) : Prop :=
  ∀ v v', AgreeOn d d' v v' → (HoldsOpt d v g ↔ HoldsOpt d' v' g')

/-- Two locations have the same name and type, and their invariants hold in the same valuations. -/
structure SameLocation (d d' : Decls) (l l' : Location) : Prop where
  id : l'.id = l.id
  ty : l'.ty = l.ty
  urgency : l'.urgency = l.urgency
  inv : SameGuard d d' l.invariant l'.invariant

/-- Two edges have the same ends, action and direction, their guards hold in the same valuations, and they make the same
assignments. -/
structure EdgeMeansSame (d d' : Decls) (e e' : Edge) : Prop where
  source : e'.source = e.source
  target : e'.target = e.target
  sync : e'.sync = e.sync
  action : e'.action = e.action
  guard : SameGuard d d' e.guard e'.guard
  update : e'.update.getD [] = e.update.getD []

/-- Two components declare clocks with the same names, and have the same locations and edges, up to the way guards and
invariants are written and clocks are numbered. -/
structure Component.SameMeaning (c c' : Component) : Prop where
  clocks : ∀ n, (∃ i, c'.decls.clocks.lookup n = some i) ↔ ∃ i, c.decls.clocks.lookup n = some i
  ints : c'.decls.ints = c.decls.ints
  locations : List.Forall₂ (SameLocation c.decls c'.decls) c.locations c'.locations
  edges : List.Forall₂ (EdgeMeansSame c.decls c'.decls) c.edges c'.edges

open ZoneLib
variable {F G : Type} [ZoneLib F] [ZoneLib G]

/-- Two systems, possibly with different numbers of clocks, behave alike up to a relation `V` between their clock values:
from locations related by `R` and values related by `V` they allow the same delays and actions, and get to related
locations and values again. -/
structure TS.BisimUpTo (A : TS F) (B : TS G) (V : Val → Val → Prop) (R : LocTree F → LocTree G → Prop) : Prop where
  zero : V zeroVal zeroVal
  delay : ∀ v w d, V v w → V (delay (dim F) v d) (delay (dim G) w d)
  inv : ∀ l m, R l m → ∀ v w, Valid (dim F) v → Valid (dim G) w → V v w → (v ∈ InvSet l ↔ w ∈ InvSet m)
  left : ∀ l m, R l m → ∀ v w a l' v', Valid (dim F) v → Valid (dim G) w → V v w → A.Act l v a l' v' →
    ∃ m' w', B.Act m w a m' w' ∧ R l' m' ∧ V v' w'
  right : ∀ l m, R l m → ∀ v w a m' w', Valid (dim F) v → Valid (dim G) w → V v w → B.Act m w a m' w' →
    ∃ l' v', A.Act l v a l' v' ∧ R l' m' ∧ V v' w'

/-- Two systems behave alike up to `V`: there is such a relation, and it relates their initial locations. -/
def TS.EquivalentUpTo (A : TS F) (B : TS G) (V : Val → Val → Prop) : Prop :=
  ∃ R, A.BisimUpTo B V R ∧ (∀ l, A.initialLoc = .ok (some l) → ∃ m, B.initialLoc = .ok (some m) ∧ R l m) ∧
    ∀ m, B.initialLoc = .ok (some m) → ∃ l, A.initialLoc = .ok (some l) ∧ R l m

/-- A component whose guards and invariants are applied as they are written (see C01), whose clocks have different indices
below `n` and whose locations have different names, at most one of them initial -/
structure Component.Clear (c : Component) (n : Nat) : Prop where
  ok : c.Ok n
  guards : ∀ e ∈ c.edges, ∀ g, e.guard = some g → GoodGuard c.decls g
  invs : ∀ l ∈ c.locations, ∀ g, l.invariant = some g → GoodGuard c.decls g
  ids : (c.locations.map (·.id)).Nodup
  initial : ∀ l ∈ c.locations, ∀ l' ∈ c.locations, l.ty = .initial → l'.ty = .initial → l.id = l'.id
  indices : (c.decls.clocks.map (·.2)).Nodup

end Reveaal
