import Verif.Spec.Semantics

/-!
# What extrapolation bounds must guarantee

Extrapolation may replace a valuation by another one that it cannot distinguish: on every clock the two
agree or both exceed the bound (`Bounds.Equiv`).  The bounds of a system are good enough if such
valuations satisfy the same invariants and guards, now and after every move.
-/

namespace Reveaal
open ZoneLib

/-- The set does not distinguish valuations that the bounds do not distinguish. -/
def Bounds.Covers (b : Bounds) (n : Nat) (S : Set Val) : Prop :=
  ∀ v w, Valid n v → Valid n w → b.Equiv v w → v ∈ S → w ∈ S

/-- The bounds `b'` distinguish no more valuations than `b`. -/
def Bounds.Weaker (b b' : Bounds) : Prop := ∀ i m, b' i = some m → ∃ k, b i = some k ∧ m ≤ k

/-- The expression is the clock with name `n` and index `i`. -/
def Arith.IsClock (d : Decls) (e : Arith) (n : String) (i : Nat) : Prop :=
  (n, i) ∈ d.clocks ∧ (e = .clock i ∨ e = .var n ∧ d.clocks.lookup n = some i)

/-- The comparison of `l` with `r` compares the clock `n`, with index `i`, with the literal `k`. -/
def ComparesClock (d : Decls) (l r : Arith) (n : String) (i : Nat) (k : Int) : Prop :=
  l.IsClock d n i ∧ r = .int k ∨ l = .int k ∧ r.IsClock d n i

/-- All comparisons of the guard are comparisons of a clock with a literal. -/
def BoolE.Plain (d : Decls) (g : BoolE) : Prop :=
  ∀ p ∈ g.comparisons, ∃ n i k, ComparesClock d p.1 p.2 n i k

/-- `g` is a guard of an edge or an invariant of a location. -/
def Component.HasExpr (c : Component) (g : BoolE) : Prop :=
  (∃ e ∈ c.edges, e.guard = some g) ∨ ∃ l ∈ c.locations, l.invariant = some g

/-- Guards and invariants only compare clocks with literals; the special locations have no invariants and
no edges. -/
structure Component.Plain (c : Component) : Prop where
  exprs : ∀ g, c.HasExpr g → g.Plain c.decls
  special : ∀ l ∈ c.locations, (l.ty = .universal ∨ l.ty = .inconsistent) →
    l.invariant = none ∧ ∀ e ∈ c.edges, e.source ≠ l.id

variable {F : Type} [ZoneLib F]

/-- The bounds of the system are good enough. -/
structure Sys.BoundsCover (s : Sys F) : Prop where
  inv : ∀ {l b}, s.IsLoc l → s.localBounds l = .ok b → b.Covers (dim F) (InvSet l)
  guard : ∀ {l b a trans t}, s.IsLoc l → s.localBounds l = .ok b → s.hasAction a = true →
    s.next l a = .ok trans → t ∈ trans → b.Covers (dim F) (den t.guard)
  next : ∀ {l b a trans t b'}, s.IsLoc l → s.localBounds l = .ok b → s.hasAction a = true →
    s.next l a = .ok trans → t ∈ trans → s.localBounds t.target = .ok b' → b.Weaker b'

end Reveaal
