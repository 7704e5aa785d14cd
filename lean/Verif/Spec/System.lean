import Verif.Model.System
import Verif.Spec.Guard
import Verif.Spec.Step

/-!
# Systems, their locations and their clocks, as a user sees them
-/

namespace Reveaal
open ZoneLib

/-- A component as the readers produce it, with clock indices of the query's dimension: the clocks of
guards and invariants are declared, and updates assign non-negative literals. -/
structure Component.Ok (c : Component) (n : Nat) : Prop where
  decls : c.decls.InDim n
  guards : ∀ e ∈ c.edges, ∀ g, e.guard = some g → g.ClocksIn fun i => i ∈ c.decls.clocks.map (·.2)
  invs : ∀ l ∈ c.locations, ∀ g, l.invariant = some g →
    g.ClocksIn fun i => i ∈ c.decls.clocks.map (·.2)
  updates : ∀ e ∈ c.edges, ∀ us, e.update = some us → ∀ u ∈ us, ∀ v, u.expr = .int v → 0 ≤ v

/-- A set of valuations only depends on some clocks. -/
def Local (n : Nat) (C : List Nat) (S : Set Val) : Prop :=
  ∀ v w, Valid n v → Valid n w → (∀ i ∈ C, v i = w i) → v ∈ S → w ∈ S

namespace Sys
variable {F : Type} [ZoneLib F]

/-- The clocks of a system. -/
def clocks : Sys F → List Nat
  | comp c => c.decls.clocks.map (·.2)
  | composition l r _ _ _ _ _ => l.clocks ++ r.clocks
  | conjunction l r _ _ => l.clocks ++ r.clocks
  | quotient t s _ _ clock _ => t.clocks ++ s.clocks ++ [clock]

/-- The locations of a system: those of a component, pairs for composition and conjunction, pairs and
the two special locations for a quotient. -/
def IsLoc : Sys F → LocTree F → Prop
  | comp c, x => ∃ p ∈ c.locations, p.2 = x
  | composition l r _ _ _ _ _, x =>
    ∃ a b, l.IsLoc a ∧ r.IsLoc b ∧ LocTree.compose a b .composition = .ok x
  | conjunction l r _ _, x =>
    ∃ a b, l.IsLoc a ∧ r.IsLoc b ∧ LocTree.compose a b .conjunction = .ok x
  | quotient t s _ _ clock _, x =>
    (∃ a b, t.IsLoc a ∧ s.IsLoc b ∧ x = LocTree.merge a b) ∨
      x = LocTree.universalLoc ∨ x = LocTree.errorLoc clock

/-- The systems the tool builds: compiled components, and what the constructors of the three operators
accept.  (The constructors of conjunction and quotient run further checks that can only reject, so this
is a superset.) -/
inductive Accepted : Sys F → Prop
  | comp {order : List (LocId × LocTree F) → List (LocId × LocTree F)} {c : Component}
      {ins outs : List String} {id : Nat} {x : CompComp F} (hc : c.Ok (dim F))
      (ho : ∀ l, (order l).Perm l) (h : CompComp.compileWith order c ins outs id = .ok x) :
      Accepted (.comp x)
  | composition {l r s : Sys F} (hl : Accepted l) (hr : Accepted r)
      (h : newComposition l r = .ok s) : Accepted s
  | conjunction {l r s : Sys F} (hl : Accepted l) (hr : Accepted r)
      (h : newConjunctionUnchecked l r = .ok s) : Accepted s
  | quotient {t s x : Sys F} {clock : Nat} (ht : Accepted t) (hs : Accepted s) (h0 : 0 < clock)
      (hn : clock < dim F) (h : newQuotientUnchecked t s clock = .ok x) : Accepted x

end Sys
end Reveaal
