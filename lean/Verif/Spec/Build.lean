import Verif.Spec.SameMeaning
import Verif.Lemmas.Recipe

/-!
# Which components can be built, and why a system is refused
-/

namespace Reveaal
open ZoneLib

/-- A component nothing of which is missing: its guards and invariants are of the fragment of C01, its locations have
different names, its edges start and end at its locations, and its edges set its clocks to numbers. -/
structure Component.Complete (c : Component) : Prop where
  guards : ∀ e ∈ c.edges, ∀ g, e.guard = some g → GoodGuard c.decls g
  invs : ∀ l ∈ c.locations, ∀ g, l.invariant = some g → GoodGuard c.decls g
  ids : (c.locations.map (·.id)).Nodup
  ends : ∀ e ∈ c.edges, e.source ∈ c.locations.map (·.id) ∧ e.target ∈ c.locations.map (·.id)
  updates : ∀ e ∈ c.edges, ∀ us, e.update = some us → ∀ u ∈ us,
    (∃ v, u.expr = .int v) ∧ u.var ∈ c.decls.clocks.map (·.1)

/-- `s` is the system that is put together as `r` says, with all clocks the components declare. -/
def Recipe.Means {F : Type} [ZoneLib F] (r : Recipe) (s : Sys F) : Prop :=
  ∃ (env : CompileEnv F) (i j : Nat), env.Perm ∧ r.compile env i = .ok (s, j)

/-- `x` is one of the two systems that `r` puts together. -/
def Recipe.Operand (x : Recipe) : Recipe → Prop
  | .composition l r | .conjunction l r | .quotient l r _ => x = l ∨ x = r
  | .component _ _ => False

/-- The reasons for which a system is refused. -/
inductive Recipe.Refused (F : Type) [ZoneLib F] : Recipe → Prop
  /-- a component has an input and an output of the same name -/
  | ambiguous {c : Component} {i : Option String} {e e' : Edge} (he : e ∈ c.edges) (he' : e' ∈ c.edges)
      (hi : e.sync = .input) (ho : e'.sync = .output) (ha : e.action = e'.action) (hs : e.action ≠ "*") :
      Refused F (.component c i)
  /-- a part is refused -/
  | part {x r : Recipe} (hx : x.Operand r) (h : x.Refused F) : Refused F r
  /-- both sides of a composition have the same output -/
  | composition {l r : Recipe} {s t : Sys F} {a : String} (hl : l.Means s) (hr : r.Means t) (h1 : a ∈ s.ts.outputs)
      (h2 : a ∈ t.ts.outputs) : Refused F (.composition l r)
  /-- an action is an input of one side of a conjunction and an output of the other -/
  | conjunction {l r : Recipe} {s t : Sys F} {a : String} (hl : l.Means s) (hr : r.Means t)
      (h : (a ∈ s.ts.inputs ∧ a ∈ t.ts.outputs) ∨ (a ∈ s.ts.outputs ∧ a ∈ t.ts.inputs)) :
      Refused F (.conjunction l r)
  /-- the conjunction is found inconsistent (see C18) -/
  | inconsistent {l r : Recipe} {s t x : Sys F} {f : ConsFailure F} {ins outs : Nat → List String} {n : Nat}
      (hl : l.Means s) (hr : r.Means t) (hx : Sys.newConjunctionUnchecked s t = .ok x)
      (h : isLeastConsistent x.ts ins outs n = .ok (some f)) : Refused F (.conjunction l r)
  /-- an output of the divisor is an input of the dividend -/
  | quotient {l r : Recipe} {q : Nat} {s t : Sys F} {a : String} (hl : l.Means s) (hr : r.Means t)
      (h1 : a ∈ t.ts.outputs) (h2 : a ∈ s.ts.inputs) : Refused F (.quotient l r q)
  /-- one of the sides of a quotient is found inconsistent or nondeterministic -/
  | unfit {x l r : Recipe} {q : Nat} {s : Sys F} {f : ConsFailure F} {ord : List Bool → Orders} {n : Nat}
      (hx : x.Operand (.quotient l r q)) (hs : x.Means s) (h : s.precheck ord n = .ok (some f)) :
      Refused F (.quotient l r q)

/-- What may happen when something is made of the system `r`: it succeeds, or the system is refused for one of these
reasons with an error message, or an addition of two constants overflows. -/
def NoCrash {α : Type} (refused : Prop) : Res α → Prop
  | .ok _ => True
  | .error (.err _) => refused
  | .error (.panic m) => m = "arithmetic overflow"
  | .error .fuel => False

/-- A computation, given the number of steps after which it is cut off, ends and does not crash. -/
def EndsWell {α : Type} (refused : Prop) (f : Nat → Res α) : Prop :=
  ∃ (N : Nat) (x : Res α), NoCrash refused x ∧ ∀ n, N ≤ n → f n = x

end Reveaal
