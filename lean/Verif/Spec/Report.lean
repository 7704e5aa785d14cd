import Verif.Model.Failures
import Verif.Spec.Protocol
import Verif.Spec.Refinement

/-!
# How a client reads the description of a state, and what a counterexample to a refinement is
-/

namespace Reveaal
open ZoneLib

/-- The value of a clock in a description: the clock of that name of the component instance with that number and
name, if there is one. -/
def clockValue (insts : List Component) (v : Val) : ClockVar → Option ℝ
  | .zero => some 0
  | .system i => some (v i)
  | .component c => do
    let k ← insts[c.comp.id]?
    if k.name = c.comp.name then (k.decls.clockIndex c.name).map v else none

/-- The constraint `x - y ≤ c` or `x - y < c` holds. -/
def SpecificConstr.Holds (insts : List Component) (v : Val) (k : SpecificConstr) : Prop :=
  ∃ x y : ℝ, clockValue insts v k.i = some x ∧ clockValue insts v k.j = some y ∧
    if k.strict = true then x - y < k.c else x - y ≤ k.c

/-- Some conjunction of the description holds. -/
def SpecificState.Holds (insts : List Component) (v : Val) (x : SpecificState) : Prop :=
  ∃ c ∈ x.constraints, ∀ k ∈ c, k.Holds insts v

/-- The component instances a description of a location mentions, with their locations. -/
def SpecificLoc.leaves : SpecificLoc → List (SpecificComp × String)
  | .component c l => [(c, l)]
  | .branch l r _ => l.leaves ++ r.leaves
  | .special _ => []

/-- The description `x` of a location says where the component instances are: instance `n` of the recipe, which has
number `base + n`, is mentioned with location `l` exactly if it is there. -/
def LocatedAs (r : Recipe) (base : Nat) (l : LocId) (x : SpecificLoc) : Prop :=
  ∀ c n, (c, n) ∈ x.leaves ↔ ∃ i k, r.InstanceAt l i k n ∧ c = ⟨k.name, base + i⟩

variable {F : Type} [ZoneLib F]

/-- The two systems move together with action `a`: both perform it if they share it; an output of `S` that `T` does not
know, and an input of `T` that `S` does not know, is performed by one side while the other stays. -/
def StepTogether (S T : TS F) (a : String) (l : LocTree F) (v : Val) (m : LocTree F) (w : Val) (l' : LocTree F)
    (v' : Val) (m' : LocTree F) (w' : Val) : Prop :=
  (((a ∈ S.outputs ∧ a ∈ T.outputs) ∨ (a ∈ S.inputs ∧ a ∈ T.inputs)) ∧ S.Act l v a l' v' ∧ T.Act m w a m' w') ∨
  (a ∈ S.outputs ∧ a ∉ T.outputs ∧ S.Act l v a l' v' ∧ m' = m ∧ w' = w) ∨
  (a ∈ T.inputs ∧ a ∉ S.inputs ∧ T.Act m w a m' w' ∧ l' = l ∧ v' = v)

/-- The states two systems get into together: they start together, let time pass together and move together. -/
inductive Together (S T : TS F) : LocTree F → Val → LocTree F → Val → Prop
  | init {l m} (hl : S.initialLoc = .ok (some l)) (hm : T.initialLoc = .ok (some m)) (h : zeroVal ∈ InvSet l)
      (h' : zeroVal ∈ InvSet m) : Together S T l zeroVal m zeroVal
  | delay {l v m w d} (h : Together S T l v m w) (hl : TS.CanDelay l v d) (hm : TS.CanDelay m w d) :
      Together S T l (delay (dim F) v d) m (delay (dim F) w d)
  | act {a l v m w l' v' m' w'} (h : Together S T l v m w) (hs : StepTogether S T a l v m w l' v' m' w') :
      Together S T l' v' m' w'

/-- In these states one side can perform `a` and the other, which should answer it, cannot. -/
def Unanswered (S T : TS F) (l : LocTree F) (v : Val) (m : LocTree F) (w : Val) (a : String) : Prop :=
  (a ∈ S.outputs ∧ a ∈ T.outputs ∧ (∃ l' v', S.Act l v a l' v') ∧ ¬ ∃ m' w', T.Act m w a m' w') ∨
  (a ∈ T.inputs ∧ a ∈ S.inputs ∧ (∃ m' w', T.Act m w a m' w') ∧ ¬ ∃ l' v', S.Act l v a l' v')

/-- What it means to describe a pair of states. -/
structure PairDescribed (r1 r2 : Recipe) (p : StatePair F) (x : SpecificState) : Prop where
  locations : ∃ a b, x.locations = .branch a b .refinement ∧ LocatedAs r1 0 p.l1.id a ∧
    LocatedAs r2 r1.components.length p.l2.id b
  zone : ∀ v, Valid (dim F) v → (v ∈ den p.zone ↔ x.Holds (r1.components ++ r2.components) v)

end Reveaal
