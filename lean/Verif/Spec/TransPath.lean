import Verif.Model.System

/-!
# The edges of each component in a transition

The components of a system are numbered from left to right.
-/

namespace Reveaal

mutual
/-- The number of components that an identifier speaks about -/
def TransId.width : TransId → Nat
  | .conjunction l r | .composition l r => l.width + r.width
  | .quotient l r => TransId.widthFirst l + TransId.widthFirst r
  | .simple _ | .none => 1
/-- That of the first of the list -/
def TransId.widthFirst : List TransId → Nat
  | [] => 0
  | t :: _ => t.width
end

mutual
/-- The identifier speaks about every component: both sides of a quotient have moves, and all moves of one side speak
about the same number of components. -/
def TransId.Full : TransId → Prop
  | .conjunction l r | .composition l r => l.Full ∧ r.Full
  | .quotient l r => l ≠ [] ∧ r ≠ [] ∧ TransId.FullAll (TransId.widthFirst l) l ∧ TransId.FullAll (TransId.widthFirst r) r
  | .simple _ | .none => True
/-- All of the list do, and have the given width. -/
def TransId.FullAll (n : Nat) : List TransId → Prop
  | [] => True
  | t :: ts => t.Full ∧ t.width = n ∧ TransId.FullAll n ts
end

mutual
/-- The edges of the component with the given number; none if it does not move. -/
def TransId.edgesAt (k : Nat) : TransId → List String
  | .conjunction l r | .composition l r => if k < l.width then l.edgesAt k else r.edgesAt (k - l.width)
  | .quotient l r =>
    if k < TransId.widthFirst l then TransId.edgesAll k l else TransId.edgesAll (k - TransId.widthFirst l) r
  | .simple e => [e]
  | .none => []
/-- The edges in all of the list -/
def TransId.edgesAll (k : Nat) : List TransId → List String
  | [] => []
  | t :: ts => t.edgesAt k ++ TransId.edgesAll k ts
end

namespace Sys
variable {F : Type}

/-- The components of a system, from left to right -/
def components : Sys F → List (CompComp F)
  | comp c => [c]
  | composition l r _ _ _ _ _ | conjunction l r _ _ | quotient l r _ _ _ _ => l.components ++ r.components

/-- A system without quotients in which only single components stand still: if one side of a composition has an action that
the other has not, then the other is a component. -/
def SingleIdle : Sys F → Prop
  | comp _ => True
  | composition l r _ _ lu ru _ =>
    l.SingleIdle ∧ r.SingleIdle ∧ (lu = [] ∨ r.components.length = 1) ∧ (ru = [] ∨ l.components.length = 1)
  | conjunction l r _ _ => l.SingleIdle ∧ r.SingleIdle
  | quotient _ _ _ _ _ _ => False

end Sys

/-- The component has an edge with this identifier. -/
def CompComp.HasEdge {F : Type} (c : CompComp F) (e : String) : Prop := ∃ q ∈ c.edges, ∃ y ∈ q.2, y.2.id = .simple e

end Reveaal
