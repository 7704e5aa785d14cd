import Verif.Model.StateQuery
import Verif.Spec.Guard
import Verif.Spec.Pattern

/-!
# What a state in a reachability query means
-/

namespace Reveaal

/-- The operand mentions the component and location. -/
inductive StateExpr.Names : StateExpr → CompVar → Prop
  | location (v : CompVar) : Names (.location v) v
  | and {es : List StateExpr} {e : StateExpr} {v : CompVar} (h : e ∈ es) (hn : Names e v) : Names (.and es) v
  | or {es : List StateExpr} {e : StateExpr} {v : CompVar} (h : e ∈ es) (hn : Names e v) : Names (.or es) v
  | not {e : StateExpr} {v : CompVar} (hn : Names e v) : Names (.not e) v

/-- In the location `l` of the system described by the recipe, a component called `name[id]` is at the location
`n`. -/
inductive Recipe.At : Recipe → LocId → String → Option String → String → Prop
  | component (c : Component) (i : Option String) (n : String) : At (.component c i) (.simple n) c.name i n
  | compositionL {r r' : Recipe} {l l' : LocId} {c i n} (h : At r l c i n) :
      At (.composition r r') (.composition l l') c i n
  | compositionR {r r' : Recipe} {l l' : LocId} {c i n} (h : At r' l' c i n) :
      At (.composition r r') (.composition l l') c i n
  | conjunctionL {r r' : Recipe} {l l' : LocId} {c i n} (h : At r l c i n) :
      At (.conjunction r r') (.conjunction l l') c i n
  | conjunctionR {r r' : Recipe} {l l' : LocId} {c i n} (h : At r' l' c i n) :
      At (.conjunction r r') (.conjunction l l') c i n
  | quotientL {r r' : Recipe} {q : Nat} {l l' : LocId} {c i n} (h : At r l c i n) :
      At (.quotient r r' q) (.quotient l l') c i n
  | quotientR {r r' : Recipe} {q : Nat} {l l' : LocId} {c i n} (h : At r' l' c i n) :
      At (.quotient r r' q) (.quotient l l') c i n

/-- The location says for every component of the recipe where it is (it is not one of the special locations of a
quotient). -/
inductive Recipe.Shape : Recipe → LocId → Prop
  | component (c : Component) (i : Option String) (n : String) : Shape (.component c i) (.simple n)
  | composition {r r' : Recipe} {l l' : LocId} (h : Shape r l) (h' : Shape r' l') :
      Shape (.composition r r') (.composition l l')
  | conjunction {r r' : Recipe} {l l' : LocId} (h : Shape r l) (h' : Shape r' l') :
      Shape (.conjunction r r') (.conjunction l l')
  | quotient {r r' : Recipe} {q : Nat} {l l' : LocId} (h : Shape r l) (h' : Shape r' l') :
      Shape (.quotient r r' q) (.quotient l l')

/-- The clock of a component that the name refers to. -/
def Recipe.HasClock (r : Recipe) (v : CompVar) (i : Nat) : Prop :=
  ∃ c, (c, v.specialId) ∈ r.namedComponents ∧ c.name = v.component ∧ c.decls.clocks.lookup v.name = some i

/-- The operand has a value. -/
inductive Operand.Value (r : Recipe) (v : Val) : Operand → ℝ → Prop
  | number (n : Int) : Value r v (.number n) n
  | clock {x : CompVar} {i : Nat} (h : r.HasClock x i) : Value r v (.clock x) (v i)
  | difference {a b : Operand} {x y : ℝ} (h : Value r v a x) (h' : Value r v b y) : Value r v (.difference a b) (x - y)
  | sum {a b : Operand} {x y : ℝ} (h : Value r v a x) (h' : Value r v b y) : Value r v (.sum a b) (x + y)

/-- What a comparison says about two numbers. -/
def Cmp.Rel : Cmp → ℝ → ℝ → Prop
  | .leq, x, y => x ≤ y
  | .geq, x, y => x ≥ y
  | .eq, x, y => x = y
  | .lt, x, y => x < y
  | .gt, x, y => x > y

mutual

/-- The state expression holds at a location of the system and a clock valuation.  `A.L` means that the component
`A` is at `L` (and that there is such a component). -/
def StateExpr.Sat (r : Recipe) (l : LocId) (v : Val) : StateExpr → Prop
  | .cmp op a b => ∃ x y, a.Value r v x ∧ b.Value r v y ∧ op.Rel x y
  | .and es => StateExpr.SatAll r l v es
  | .or es => StateExpr.SatAny r l v es
  | .location x => r.At l x.component x.specialId x.name ∧ ∀ n, r.At l x.component x.specialId n → n = x.name
  | .not e => ¬ e.Sat r l v
  | .bool b => b = true

/-- All of the expressions hold. -/
def StateExpr.SatAll (r : Recipe) (l : LocId) (v : Val) : List StateExpr → Prop
  | [] => True
  | e :: es => e.Sat r l v ∧ StateExpr.SatAll r l v es

/-- Some of the expressions hold. -/
def StateExpr.SatAny (r : Recipe) (l : LocId) (v : Val) : List StateExpr → Prop
  | [] => False
  | e :: es => e.Sat r l v ∨ StateExpr.SatAny r l v es

end

/-- The names of clocks and locations refer to components of the system, no location is mentioned inside a
disjunction, and all comparisons are between operands that the tool applies correctly (see C01). -/
inductive StateExpr.Plain (r : Recipe) : StateExpr → Prop
  | cmp {op : Cmp} {a b : Operand} (h : ∀ x y, a.toArith r.namedComponents = .ok x →
      b.toArith r.namedComponents = .ok y → GoodSides ⟨[], []⟩ x y) : Plain r (.cmp op a b)
  | and {es : List StateExpr} (h : ∀ e ∈ es, Plain r e) : Plain r (.and es)
  | location {x : CompVar} (h : ∃ c, (c, x.specialId) ∈ r.namedComponents ∧ c.name = x.component) :
      Plain r (.location x)
  | bool (b : Bool) : Plain r (.bool b)

mutual

/-- The clock constraints of a state expression hold: what is left of it if all locations are taken as true. -/
def StateExpr.SatClocks (r : Recipe) (v : Val) : StateExpr → Prop
  | .cmp op a b => ∃ x y, a.Value r v x ∧ b.Value r v y ∧ op.Rel x y
  | .and es => StateExpr.AllClocks r v es
  | .or es => StateExpr.AnyClocks r v es
  | .location _ => True
  | .not e => ¬ e.SatClocks r v
  | .bool b => b = true

/-- The clock constraints of all of the expressions hold. -/
def StateExpr.AllClocks (r : Recipe) (v : Val) : List StateExpr → Prop
  | [] => True
  | e :: es => e.SatClocks r v ∧ StateExpr.AllClocks r v es

/-- The clock constraints of some of the expressions hold. -/
def StateExpr.AnyClocks (r : Recipe) (v : Val) : List StateExpr → Prop
  | [] => False
  | e :: es => e.SatClocks r v ∨ StateExpr.AnyClocks r v es

end

/-- All comparisons are between operands that the tool applies correctly (see C01). -/
inductive StateExpr.Readable (r : Recipe) : StateExpr → Prop
  | cmp {op : Cmp} {a b : Operand} (h : ∀ x y, a.toArith r.namedComponents = .ok x →
      b.toArith r.namedComponents = .ok y → GoodSides ⟨[], []⟩ x y) : Readable r (.cmp op a b)
  | and {es : List StateExpr} (h : ∀ e ∈ es, Readable r e) : Readable r (.and es)
  | or {es : List StateExpr} (h : ∀ e ∈ es, Readable r e) : Readable r (.or es)
  | location (x : CompVar) : Readable r (.location x)
  | not (e : StateExpr) : Readable r (.not e)
  | bool (b : Bool) : Readable r (.bool b)

/-- The component that a name refers to is part of the system. -/
def Recipe.Knows (r : Recipe) (x : CompVar) : Prop := ∃ c, (c, x.specialId) ∈ r.namedComponents ∧ c.name = x.component

/-- All clocks mentioned in the operand are clocks of the system. -/
def Operand.Known (r : Recipe) : Operand → Prop
  | .number _ => True
  | .clock x => ∃ i, r.HasClock x i
  | .difference a b | .sum a b => a.Known r ∧ b.Known r

/-- A conjunction of comparisons between known clocks and of known locations. -/
inductive StateExpr.Simple (r : Recipe) : StateExpr → Prop
  | cmp {op : Cmp} {a b : Operand} (ha : a.Known r) (hb : b.Known r) : Simple r (.cmp op a b)
  | and {es : List StateExpr} (h0 : es ≠ []) (h : ∀ e ∈ es, Simple r e) : Simple r (.and es)
  | location {x : CompVar} {c : Component} (h : (c, x.specialId) ∈ r.namedComponents) (hc : c.name = x.component)
      (hl : ∃ l ∈ c.locations, l.id = x.name) : Simple r (.location x)
  | bool (b : Bool) : Simple r (.bool b)

end Reveaal
