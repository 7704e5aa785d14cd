import Verif.Model.Expr

/-!
# What a guard means

A specification of guards and invariants that does not use the model's evaluation code: the value
of an arithmetic expression over the reals, and satisfaction of a Boolean expression.
-/

namespace Reveaal

/-- The integer value of an expression without clocks.  A name that is a declared clock is a clock.
Division truncates; dividing by zero has no value. -/
def constVal (d : Decls) : Arith → Option Int
  | .int c => some c
  | .clock _ => none
  | .var n => if (d.clocks.lookup n).isSome then none else d.ints.lookup n
  | .add l r => do some ((← constVal d l) + (← constVal d r))
  | .dif l r => do some ((← constVal d l) - (← constVal d r))
  | .mul l r => do some ((← constVal d l) * (← constVal d r))
  | .div l r => do
    let a ← constVal d l
    let b ← constVal d r
    if b = 0 then none else some (a.tdiv b)
  | .mod l r => do
    let a ← constVal d l
    let b ← constVal d r
    if b = 0 then none else some (a.tmod b)

/-- The value of an expression in a clock valuation; integer division and remainder apply to
expressions without clocks only. -/
noncomputable def value (d : Decls) (v : Val) : Arith → Option ℝ
  | .int c => some (c : ℝ)
  | .clock i => some (v i)
  | .var n =>
    match d.clocks.lookup n with
    | some i => some (v i)
    | none => (d.ints.lookup n).map fun c => (c : ℝ)
  | .add l r => do some ((← value d v l) + (← value d v r))
  | .dif l r => do some ((← value d v l) - (← value d v r))
  | .mul l r => do some ((← value d v l) * (← value d v r))
  | .div l r => (constVal d (.div l r)).map fun c => (c : ℝ)
  | .mod l r => (constVal d (.mod l r)).map fun c => (c : ℝ)

/-- A guard holds in a valuation. -/
def Holds (d : Decls) (v : Val) : BoolE → Prop
  | .and l r => Holds d v l ∧ Holds d v r
  | .or l r => Holds d v l ∨ Holds d v r
  | .le l r => ∃ a b, value d v l = some a ∧ value d v r = some b ∧ a ≤ b
  | .ge l r => ∃ a b, value d v l = some a ∧ value d v r = some b ∧ a ≥ b
  | .lt l r => ∃ a b, value d v l = some a ∧ value d v r = some b ∧ a < b
  | .gt l r => ∃ a b, value d v l = some a ∧ value d v r = some b ∧ a > b
  | .eq l r => ∃ a b, value d v l = some a ∧ value d v r = some b ∧ a = b
  | .bool b => b = true

/-! ## The fragment of guards that is applied correctly

The full property (every accepted guard means what it says) is false of the code, see
`Verif.Props.C01`.  The fragment: each side is a constant, a difference of two clocks, or one clock
with constants in one of the shapes below; the two sides together must be a clock constraint. -/

/-- The expression is the clock `x`. -/
def IsClock (d : Decls) (e : Arith) (x : Nat) : Prop :=
  e = .clock x ∨ ∃ n, e = .var n ∧ d.clocks.lookup n = some x

/-- A clock to which constants are added. -/
inductive PosChain (d : Decls) : Arith → Prop
  | clock {e x} : IsClock d e x → PosChain d e
  | addR {e k} : PosChain d e → (constVal d k).isSome → PosChain d (.add e k)
  | addL {e k} : PosChain d e → (constVal d k).isSome → PosChain d (.add k e)

/-- A constant minus a clock, to which constants are added or subtracted. -/
inductive NegChain (d : Decls) : Arith → Prop
  | base {e x k} : IsClock d e x → (constVal d k).isSome → NegChain d (.dif k e)
  | addR {e k} : NegChain d e → (constVal d k).isSome → NegChain d (.add e k)
  | addL {e k} : NegChain d e → (constVal d k).isSome → NegChain d (.add k e)
  | subR {e k} : NegChain d e → (constVal d k).isSome → NegChain d (.dif e k)

/-- One clock counted positively: a chain of additions, possibly minus one constant at the end. -/
inductive PosSide (d : Decls) : Arith → Prop
  | chain {e} : PosChain d e → PosSide d e
  | subR {e k} : PosChain d e → (constVal d k).isSome → PosSide d (.dif e k)

/-- The difference of two clocks, with constants next to one of them: `x + 3 - y`, `x + (3 - y)` or `3 - y + x`. -/
inductive DiffSide (d : Decls) : Arith → Prop
  | posSub {l r y} : PosSide d l → IsClock d r y → DiffSide d (.dif l r)
  | posNeg {l r x} : IsClock d l x → NegChain d r → DiffSide d (.add l r)
  | negPos {l r x} : NegChain d l → IsClock d r x → DiffSide d (.add l r)

/-- The pairs of sides that are applied correctly. -/
inductive GoodSides (d : Decls) : Arith → Arith → Prop
  | posConst {l r} : PosSide d l → (constVal d r).isSome → GoodSides d l r
  | constPos {l r} : (constVal d l).isSome → PosSide d r → GoodSides d l r
  | negConst {l r} : NegChain d l → (constVal d r).isSome → GoodSides d l r
  | constNeg {l r} : (constVal d l).isSome → NegChain d r → GoodSides d l r
  | posPos {l r} : PosSide d l → PosSide d r → GoodSides d l r
  | negNeg {l r} : NegChain d l → NegChain d r → GoodSides d l r
  | diffConst {l r} : DiffSide d l → (constVal d r).isSome → GoodSides d l r
  | constDiff {l r} : (constVal d l).isSome → DiffSide d r → GoodSides d l r

/-- A guard all of whose comparisons are in the fragment. -/
def GoodGuard (d : Decls) : BoolE → Prop
  | .and l r | .or l r => GoodGuard d l ∧ GoodGuard d r
  | .le l r | .ge l r | .lt l r | .gt l r | .eq l r => GoodSides d l r
  | .bool _ => True

/-- All declared clocks satisfy a predicate. -/
def Decls.ClocksIn (d : Decls) (P : Nat → Prop) : Prop := ∀ p ∈ d.clocks, P p.2

/-- All explicit clock indices of an arithmetic expression satisfy a predicate. -/
def Arith.ClocksIn (P : Nat → Prop) : Arith → Prop
  | .clock i => P i
  | .add l r | .dif l r | .mul l r | .div l r | .mod l r => l.ClocksIn P ∧ r.ClocksIn P
  | _ => True

/-- All explicit clock indices of a guard satisfy a predicate. -/
def BoolE.ClocksIn (P : Nat → Prop) : BoolE → Prop
  | .and l r | .or l r => l.ClocksIn P ∧ r.ClocksIn P
  | .le l r | .ge l r | .lt l r | .gt l r | .eq l r => l.ClocksIn P ∧ r.ClocksIn P
  | .bool _ => True

/-- The clocks declared have indices within the dimension of the zones. -/
abbrev Decls.InDim (d : Decls) (n : Nat) : Prop := d.ClocksIn fun i => 0 < i ∧ i < n

/-- All explicit clock indices of an arithmetic expression are real clocks below `n`. -/
abbrev Arith.InDim (n : Nat) (e : Arith) : Prop := e.ClocksIn fun i => 0 < i ∧ i < n

/-- All explicit clock indices of a guard are real clocks below `n`. -/
abbrev BoolE.InDim (n : Nat) (g : BoolE) : Prop := g.ClocksIn fun i => 0 < i ∧ i < n

/-- An optional guard holds: no guard is true. -/
def HoldsOpt (d : Decls) (v : Val) : Option BoolE → Prop
  | none => True
  | some g => Holds d v g

end Reveaal
