import Verif.Zones

/-!
# Arithmetic and Boolean expressions, and their application to zones

Models `src/ModelObjects/Expressions/arith_expression.rs`,
`src/ModelObjects/Expressions/bool_expression.rs` and `src/EdgeEval/constraint_applyer.rs`.
-/

namespace Reveaal

/-- How a Rust computation can fail: `Result::Err` or a panic.  `fuel` is not a behaviour of the code:
it says that a search of the model ran out of its step bound, and no theorem treats it as an answer.
(std `Result` and `panic!`, as used throughout e.g. constraint_applyer.rs:7-70) -/
inductive Fail where
  | err (msg : String)
  | panic (msg : String)
  | fuel
deriving DecidableEq, Repr

/-- A computation that may return an error or panic. (std `Result`, e.g. constraint_applyer.rs:7-70) -/
abbrev Res := Except Fail

/-- `i32` arithmetic: a result out of range panics (the debug build's overflow check; a release
build would wrap around instead, which is not modelled). (std, used at arith_expression.rs:342-392, 445-515) -/
def chk (x : Int) : Res Int :=
  if -2147483648 ≤ x ∧ x ≤ 2147483647 then .ok x else .error (.panic "arithmetic overflow")

/-- `i32` division: truncating, panics on division by zero and on overflow.
(std, used at arith_expression.rs:371, 500) -/
def i32Div (x y : Int) : Res Int :=
  if y = 0 then .error (.panic "attempt to divide by zero") else chk (x.tdiv y)

/-- `i32` remainder: sign of the dividend, panics on zero and on `i32::MIN % -1`.
(std, used at arith_expression.rs:378, 510) -/
def i32Mod (x y : Int) : Res Int :=
  if y = 0 then .error (.panic "attempt to calculate the remainder with a divisor of zero")
  else if x = -2147483648 ∧ y = -1 then .error (.panic "arithmetic overflow")
  else .ok (x.tmod y)

/-- arith_expression.rs:10-19 `enum ArithExpression` -/
inductive Arith where
  | dif (l r : Arith)
  | add (l r : Arith)
  | mul (l r : Arith)
  | div (l r : Arith)
  | mod (l r : Arith)
  | clock (i : Nat)
  | var (name : String)
  | int (c : Int)
deriving DecidableEq, Repr

/-- component.rs:186-191 `struct Declarations`; hash maps are association lists in iteration
order. -/
structure Decls where
  ints : List (String × Int)
  clocks : List (String × Nat)
deriving DecidableEq, Repr

/-- component.rs:217-219 `get_clock_index_by_name` (hash map lookup). -/
def Decls.clockIndex (d : Decls) (name : String) : Option Nat := d.clocks.lookup name

namespace Arith

/-- arith_expression.rs:432-443 `clock_var_count` -/
def clockVarCount : Arith → Nat
  | clock _ => 1
  | var _ => 1
  | dif l r | add l r | mul l r | div l r | mod l r => l.clockVarCount + r.clockVarCount
  | int _ => 0

/-- arith_expression.rs:449-461 `ADif` -/
def aDif (l r : Arith) : Res Arith :=
  if r = int 0 then .ok l else
    match l, r with
    | int i, int j => do .ok (int (← chk (i - j)))
    | _, _ => .ok (dif l r)

/-- arith_expression.rs:463-477 `AAdd` -/
def aAdd (l r : Arith) : Res Arith :=
  if r = int 0 then .ok l else if l = int 0 then .ok r else
    match l, r with
    | int i, int j => do .ok (int (← chk (i + j)))
    | _, _ => .ok (add l r)

/-- arith_expression.rs:479-491 `AMul` -/
def aMul (l r : Arith) : Res Arith :=
  if r = int 0 ∨ l = int 0 then .ok (int 0) else
    match l, r with
    | int i, int j => do .ok (int (← chk (i * j)))
    | _, _ => .ok (mul l r)

/-- arith_expression.rs:493-505 `ADiv` -/
def aDiv (l r : Arith) : Res Arith :=
  if r = int 0 ∨ l = int 0 then .ok (int 0) else
    match l, r with
    | int i, int j => do .ok (int (← i32Div i j))
    | _, _ => .ok (div l r)

/-- arith_expression.rs:507-515 `AMod` -/
def aMod (l r : Arith) : Res Arith :=
  match l, r with
  | int i, int j => do .ok (int (← i32Mod i j))
  | _, _ => .ok (mod l r)

/-- arith_expression.rs:552-559 `enum Operation`; the flag says the clock was the right operand. -/
inductive Op where
  | dif (right : Bool)
  | add (right : Bool)
  | mul (right : Bool)
  | div (right : Bool)
  | mod (right : Bool)
  | none
deriving DecidableEq, Repr

/-- arith_expression.rs:324-340 `clone_expr` -/
def cloneExpr (checker cloner : Arith) (errMsg : Option String) : Res (Option Arith) :=
  match checker with
  | clock _ =>
    match errMsg with
    | some e => .error (.err e)
    | none => .ok (some cloner)
  | var _ => .ok (some cloner)
  | _ => .ok none

/-- arith_expression.rs:228-322 `move_clock_and_vars`.  Returns the new value of `self` and the
extracted clock or variable with the operation of its parent. -/
def moveClockAndVars : Arith → Op → Res (Arith × Option (Arith × Op))
  | clock x, prev => .ok (int 0, some (clock x, prev))
  | var s, prev => .ok (int 0, some (var s, prev))
  | int c, _ => .ok (int c, none)
  | dif l r, _ =>
    if l.clockVarCount > 0 then do
      let sw ← cloneExpr l r none
      let (l', out) ← moveClockAndVars l (.dif false)
      .ok (sw.getD (dif l' r), out)
    else if r.clockVarCount > 0 then do
      let sw ← cloneExpr r l none
      let (r', out) ← moveClockAndVars r (.dif true)
      .ok (sw.getD (dif l r'), out)
    else .ok (dif l r, none)
  | add l r, _ =>
    if l.clockVarCount > 0 then do
      let sw ← cloneExpr l r none
      let (l', out) ← moveClockAndVars l (.add false)
      .ok (sw.getD (add l' r), out)
    else if r.clockVarCount > 0 then do
      let sw ← cloneExpr r l none
      let (r', out) ← moveClockAndVars r (.add true)
      .ok (sw.getD (add l r'), out)
    else .ok (add l r, none)
  | mul l r, _ =>
    if l.clockVarCount > 0 then do
      let sw ← cloneExpr l r (some "Can't parse multiplication with clocks")
      let (l', out) ← moveClockAndVars l (.mul false)
      .ok (sw.getD (mul l' r), out)
    else if r.clockVarCount > 0 then do
      let sw ← cloneExpr r l (some "Can't parse multiplication with clocks")
      let (r', out) ← moveClockAndVars r (.mul true)
      .ok (sw.getD (mul l r'), out)
    else .ok (mul l r, none)
  | div l r, _ =>
    if l.clockVarCount > 0 then do
      let sw ← cloneExpr l r (some "Can't parse division with clocks")
      let (l', out) ← moveClockAndVars l (.div false)
      .ok (sw.getD (div l' r), out)
    else if r.clockVarCount > 0 then do
      let sw ← cloneExpr r l (some "Can't parse division with clocks")
      let (r', out) ← moveClockAndVars r (.div true)
      .ok (sw.getD (div l r'), out)
    else .ok (div l r, none)
  | mod l r, _ =>
    if l.clockVarCount > 0 then do
      let sw ← cloneExpr l r (some "Can't parse modulo with clocks")
      let (l', out) ← moveClockAndVars l (.mod false)
      .ok (sw.getD (mod l' r), out)
    else if r.clockVarCount > 0 then do
      let sw ← cloneExpr r l (some "Can't parse modulo with clocks")
      let (r', out) ← moveClockAndVars r (.mod true)
      .ok (sw.getD (mod l r'), out)
    else .ok (mod l r, none)

/-- arith_expression.rs:185-188: the extraction loop of `simplify`.  Every iteration that continues
removes a clock or variable, so fuel `clockVarCount + 1` is enough (`extractLoop_fuel`). -/
def extractLoop : Nat → Arith → Op → Res (Arith × List (Arith × Op))
  | 0, _, _ => .error (.panic "out of fuel")
  | n + 1, e, op => do
    let (e', out) ← moveClockAndVars e op
    match out with
    | none => .ok (e', [])
    | some (x, op') => do
      let (e'', diffs) ← extractLoop n e' op'
      .ok (e'', (x, op') :: diffs)

/-- arith_expression.rs:189-223: one step of the rebuilding loop of `simplify`. -/
def rebuildStep (x : Arith × Op) (out : Arith) : Res Arith :=
  match x.2 with
  | .dif true => aDif out x.1
  | .dif false => aDif x.1 out
  | .add true => aAdd out x.1
  | .add false => aAdd x.1 out
  | .mul true => aMul out x.1
  | .mul false => aMul x.1 out
  | .div true => aDiv out x.1
  | .div false => aDiv x.1 out
  | .mod true => aMod out x.1
  | .mod false => aMod x.1 out
  | .none => .ok x.1

/-- arith_expression.rs:189-223: `diffs` is popped from the end. -/
def rebuild : List (Arith × Op) → Arith → Res Arith
  | [], out => .ok out
  | x :: xs, out => do
    let out ← rebuild xs out
    rebuildStep x out

/-- arith_expression.rs:342-392 `simplify_helper`: the new expression and whether it changed. -/
def simplifyHelper : Arith → Res (Arith × Bool)
  | dif l r => do
    let (l, c1) ← simplifyHelper l
    let (r, c2) ← simplifyHelper r
    match l, r with
    | int x, int y => do .ok (int (← chk (x - y)), true)
    | _, _ => .ok (dif l r, c1 || c2)
  | add l r => do
    let (l, c1) ← simplifyHelper l
    let (r, c2) ← simplifyHelper r
    match l, r with
    | int x, int y => do .ok (int (← chk (x + y)), true)
    | _, _ => .ok (add l r, c1 || c2)
  | mul l r => do
    let (l, c1) ← simplifyHelper l
    let (r, c2) ← simplifyHelper r
    match l, r with
    | int x, int y => do .ok (int (← chk (x * y)), true)
    | _, _ => .ok (mul l r, c1 || c2)
  | div l r => do
    let (l, c1) ← simplifyHelper l
    let (r, c2) ← simplifyHelper r
    match l, r with
    | int x, int y => do .ok (int (← i32Div x y), true)
    | _, _ => .ok (div l r, c1 || c2)
  | mod l r => do
    let (l, c1) ← simplifyHelper l
    let (r, c2) ← simplifyHelper r
    match l, r with
    | int x, int y => do .ok (int (← i32Mod x y), true)
    | _, _ => .ok (mod l r, c1 || c2)
  | e => .ok (e, false)

/-- Number of nodes; every changing pass of `simplify_helper` removes one.
(for the loop of arith_expression.rs:181-226 `simplify`) -/
def size : Arith → Nat
  | dif l r | add l r | mul l r | div l r | mod l r => l.size + r.size + 1
  | _ => 1

/-- arith_expression.rs:224 `while out.simplify_helper() {}` -/
def foldLoop : Nat → Arith → Res Arith
  | 0, _ => .error (.panic "out of fuel")
  | n + 1, e => do
    let (e', changed) ← simplifyHelper e
    if changed then foldLoop n e' else .ok e'

/-- arith_expression.rs:181-226 `simplify` -/
def simplify (e : Arith) : Res Arith := do
  let (out, diffs) ← extractLoop (e.clockVarCount + 1) e .none
  let out ← rebuild diffs out
  foldLoop (out.size + 1) out

/-- constraint_applyer.rs:132-167 `replace_vars` -/
def replaceVars (d : Decls) : Arith → Res Arith
  | dif l r => do aDif (← replaceVars d l) (← replaceVars d r)
  | add l r => do aAdd (← replaceVars d l) (← replaceVars d r)
  | mul l r => do aMul (← replaceVars d l) (← replaceVars d r)
  | div l r => do aDiv (← replaceVars d l) (← replaceVars d r)
  | mod l r => do aMod (← replaceVars d l) (← replaceVars d r)
  | clock x => .ok (clock x)
  | var name =>
    match d.clocks.lookup name with
    | some x => .ok (clock x)
    | none =>
      match d.ints.lookup name with
      | some x => .ok (int x)
      | none => .error (.err name)
  | int i => .ok (int i)

/-- constraint_applyer.rs:169-180 `get_const` -/
def getConst (d : Decls) : Arith → Res Int
  | int x => .ok x
  | clock _ => .ok 0
  | var name => .ok ((d.ints.lookup name).getD 0)
  | dif l r => do chk ((← getConst d l) - (← getConst d r))
  | add l r => do chk ((← getConst d l) + (← getConst d r))
  | mul l r => do chk ((← getConst d l) * (← getConst d r))
  | div l r => do i32Div (← getConst d l) (← getConst d r)
  | mod l r => do i32Mod (← getConst d l) (← getConst d r)

end Arith

/-- arith_expression.rs:561-591 `struct Clock` -/
structure Clk where
  value : Nat
  negated : Bool
deriving DecidableEq, Repr

/-- arith_expression.rs:588-590 `invert` -/
def Clk.invert (c : Clk) : Clk := { c with negated := !c.negated }

/-- constraint_applyer.rs:182-195 `combine_clocks` -/
def combineClocks (c1 c2 : Clk) (constant : Int) (sameSign : Bool) : Res (Nat × Nat × Int) :=
  if (sameSign && c1.negated != c2.negated) || (!sameSign && c1.negated == c2.negated) then
    .error (.err "Same sign")
  else if !c1.negated then .ok (c1.value, c2.value, constant)
  else .ok (c2.value, c1.value, constant)

/-- constraint_applyer.rs:197-245 `get_clock_val` -/
def getClockVal : Arith → Nat → Bool → Res (Clk × Option Clk)
  | .dif (.clock x) r, count, _ =>
    if count > 1 then do .ok (⟨x, false⟩, some (← getClockVal r (count - 1) true).1)
    else .ok (⟨x, false⟩, none)
  | .dif l (.clock x), count, _ =>
    if count > 1 then do .ok (⟨x, true⟩, some (← getClockVal l (count - 1) false).1)
    else .ok (⟨x, true⟩, none)
  | .dif _ _, _, _ => .error (.err "No Clocks")
  | .add (.clock x) r, count, _ =>
    if count > 1 then do .ok (⟨x, false⟩, some (← getClockVal r (count - 1) false).1)
    else .ok (⟨x, false⟩, none)
  | .add l (.clock x), count, _ =>
    if count > 1 then do .ok (⟨x, false⟩, some (← getClockVal l (count - 1) false).1)
    else .ok (⟨x, false⟩, none)
  | .add _ _, _, _ => .error (.err "No Clocks")
  | .mul _ _, _, _ | .div _ _, _, _ | .mod _ _, _, _ =>
    .error (.err "Multiplication with clock is illegal")
  | .clock x, count, negated =>
    if count > 1 then .error (.panic "called `Option::unwrap()` on a `None` value")
    else .ok (⟨x, negated⟩, none)
  | _, _, _ => .error (.err "No Clocks")

/-- `Option::unwrap` (std, e.g. location_tree.rs:58) -/
def unwrap {α : Type} : Option α → Res α
  | some a => .ok a
  | none => .error (.panic "called `Option::unwrap()` on a `None` value")

/-- constraint_applyer.rs:79-129, the part of `get_indices` after both sides are simplified. -/
def simplifiedIndices (d : Decls) (left right : Arith) : Res (Nat × Nat × Int) :=
  let cl := left.clockVarCount
  let cr := right.clockVarCount
  if cl + cr = 0 then
    .error (.err "Expressions must use clocks to get indices, this should be unreachable")
  else if cl + cr > 2 then .error (.err "Too many clocks")
  else do
    let lc ← left.getConst d
    let rc ← right.getConst d
    let constant ← chk (rc - lc)
    match cl, cr with
    | 1, 1 => do
      let c1 ← getClockVal left 1 false
      let c2 ← getClockVal right 1 false
      combineClocks c1.1 c2.1 constant true
    | 2, 0 => do
      let (c1, c2) ← getClockVal left 2 false
      combineClocks c1 (← unwrap c2) constant false
    | 0, 2 => do
      let (c1, c2) ← getClockVal right 2 false
      combineClocks c1.invert (← unwrap c2).invert constant false
    | 1, 0 => do
      let c := (← getClockVal left 1 false).1
      if c.negated then .ok (0, c.value, constant) else .ok (c.value, 0, constant)
    | 0, 1 => do
      let c := (← getClockVal right 1 false).1
      if !c.negated then .ok (0, c.value, constant) else .ok (c.value, 0, constant)
    | _, _ => .error (.panic "internal error: entered unreachable code")

/-- constraint_applyer.rs:72-130 `get_indices`: the constraint `left ≤ right` as `i - j ≤ c`. -/
def getIndices (d : Decls) (left right : Arith) : Res (Nat × Nat × Int) := do
  let left ← (← left.replaceVars d).simplify
  let right ← (← right.replaceVars d).simplify
  simplifiedIndices d left right

/-- bool_expression.rs:13-22 `enum BoolExpression` -/
inductive BoolE where
  | and (l r : BoolE)
  | or (l r : BoolE)
  | le (l r : Arith)
  | ge (l r : Arith)
  | lt (l r : Arith)
  | gt (l r : Arith)
  | eq (l r : Arith)
  | bool (b : Bool)
deriving DecidableEq, Repr

section Apply
variable {F : Type} [ZoneLib F]

/-- constraint_applyer.rs:7-69 `apply_constraints_to_state` -/
def applyConstraints (d : Decls) : BoolE → F → Res F
  | g, fed =>
    if ZoneLib.isEmpty fed then .ok fed else
      match g with
      | .and l r => do applyConstraints d r (← applyConstraints d l fed)
      | .or l r => do
        let fed1 ← applyConstraints d l fed
        let fed2 ← applyConstraints d r fed
        .ok (ZoneLib.append fed1 fed2)
      | .le l r => do
        let (i, j, c) ← getIndices d l r
        .ok (ZoneLib.constrain fed i j (.LE c))
      | .ge l r => do
        let (i, j, c) ← getIndices d r l
        .ok (ZoneLib.constrain fed i j (.LE c))
      | .eq l r => do
        let (i, j, c) ← getIndices d l r
        .ok (ZoneLib.constrain (ZoneLib.constrain fed i j (.LE c)) j i (.LE (← chk (-c))))
      | .lt l r => do
        let (i, j, c) ← getIndices d l r
        .ok (ZoneLib.constrain fed i j (.LS c))
      | .gt l r => do
        let (i, j, c) ← getIndices d r l
        .ok (ZoneLib.constrain fed i j (.LS c))
      | .bool b => if b then .ok fed else .ok ZoneLib.empty

end Apply

/-! ## From symbolic constraints to expressions -/

/-- bool_expression.rs:100-103: the inverted naming.  Collecting into a hash map keeps the last
pair for an index, so later entries of the iteration order win. -/
def invertNaming (naming : List (String × Nat)) : List (Nat × String) :=
  naming.reverse.map fun p => (p.2, p.1)

/-- bool_expression.rs:463-470 `var_from_naming` -/
def varFromNaming (naming : List (Nat × String)) (i : Nat) : Res Arith := do
  .ok (.var (← unwrap (naming.lookup i)))

/-- bool_expression.rs:154-215 `from_constraint` -/
def fromConstraint (naming : List (Nat × String)) (c : Constr) : Res BoolE :=
  let (strict, bound) := match c.ineq with
    | .LE b => (false, b)
    | .LS b => (true, b)
  match c.i, c.j with
  | 0, 0 => .error (.panic "Constraint with i == 0 and j == 0 is not allowed")
  | 0, j => do
    let x ← varFromNaming naming j
    let b ← chk (-bound)
    .ok (if strict then .gt x (.int b) else .ge x (.int b))
  | i, 0 => do
    let x ← varFromNaming naming i
    .ok (if strict then .lt x (.int bound) else .le x (.int bound))
  | i, j => do
    let x ← varFromNaming naming i
    let y ← varFromNaming naming j
    if bound = 0 then .ok (if strict then .lt x y else .le x y)
    else .ok (if strict then .lt (.dif x y) (.int bound) else .le (.dif x y) (.int bound))

/-- bool_expression.rs:138-150: the accumulating loop of `from_conjunction`. -/
def fromConjLoop (naming : List (Nat × String)) : Option BoolE → List Constr → Res (Option BoolE)
  | acc, [] => .ok acc
  | acc, c :: cs => do
    let e ← fromConstraint naming c
    match acc with
    | none => fromConjLoop naming (some e) cs
    | some r => fromConjLoop naming (some (.and r e)) cs

/-- bool_expression.rs:125-152 `from_conjunction` (the case of one constraint is the loop run
once). -/
def fromConjunction (naming : List (Nat × String)) (c : Conj) : Res (Option BoolE) :=
  match c with
  | [] => .ok none
  | [k] => do .ok (some (← fromConstraint naming k))
  | _ => fromConjLoop naming none c

/-- bool_expression.rs:109-121: the accumulating loop of `from_disjunction`; a conjunction that is
`None` (true) makes the whole result `None`. -/
def fromDisjLoop (naming : List (Nat × String)) : Option BoolE → List Conj → Res (Option BoolE)
  | acc, [] => .ok acc
  | acc, c :: cs => do
    match ← fromConjunction naming c with
    | none => .ok none
    | some e =>
      match acc with
      | none => fromDisjLoop naming (some e) cs
      | some r => fromDisjLoop naming (some (.or r e)) cs

/-- bool_expression.rs:96-123 `from_disjunction` -/
def fromDisjunction (d : Disj) (naming : List (String × Nat)) : Res (Option BoolE) :=
  match d with
  | [] => .ok (some (.bool false))
  | [c] => fromConjunction (invertNaming naming) c
  | _ => fromDisjLoop (invertNaming naming) none d

/-! ## Other operations on expressions -/

/-- arith_expression.rs:130-163 `get_constant` -/
def getConstant (left right : Arith) (clock : Nat) (name : String) : Int :=
  match left with
  | .clock c =>
    if c = clock then (match right with | .int k => k | _ => 0) else 0
  | .var n =>
    if n = name then (match right with | .int k => k | _ => 0) else 0
  | .int k =>
    match right with
    | .clock c => if c = clock then k else 0
    | .var n => if n = name then k else 0
    | _ => 0
  | _ => 0

/-- bool_expression.rs:283-303 `iterate_constraints`: the compared pairs in visiting order. -/
def BoolE.comparisons : BoolE → List (Arith × Arith)
  | .and l r | .or l r => l.comparisons ++ r.comparisons
  | .le l r | .ge l r | .lt l r | .gt l r | .eq l r => [(l, r)]
  | .bool _ => []

/-- bool_expression.rs:217-230 `get_max_constant` -/
def BoolE.getMaxConstant (e : BoolE) (clock : Nat) (name : String) : Int :=
  e.comparisons.foldl (fun acc p =>
    let k := getConstant p.1 p.2 clock name
    if acc < k then k else acc) 0

/-- bool_expression.rs:266-281 `conjunction`: pops guards from the end. -/
def BoolE.conjunction (guards : List BoolE) : BoolE := go guards.reverse
where
  go : List BoolE → BoolE
  | [] => .bool false
  | [g] => g
  | g :: gs => .and g (go gs)

/-- arith_expression.rs:395-405 `has_varname` -/
def Arith.hasVar (name : String) : Arith → Bool
  | dif l r | add l r | mul l r | div l r | mod l r => l.hasVar name || r.hasVar name
  | clock _ | int _ => false
  | var n => name == n

/-- bool_expression.rs:399-411 `has_varname` -/
def BoolE.hasVar (name : String) : BoolE → Bool
  | and l r | or l r => l.hasVar name || r.hasVar name
  | le l r | ge l r | lt l r | gt l r | eq l r => l.hasVar name || r.hasVar name
  | bool _ => false

/-- arith_expression.rs:413-430 `replace_varname` (and 96-128 `swap_var_name`, which does the
same). -/
def Arith.replaceVarname (old new : String) : Arith → Arith
  | dif l r => dif (l.replaceVarname old new) (r.replaceVarname old new)
  | add l r => add (l.replaceVarname old new) (r.replaceVarname old new)
  | mul l r => mul (l.replaceVarname old new) (r.replaceVarname old new)
  | div l r => div (l.replaceVarname old new) (r.replaceVarname old new)
  | mod l r => mod (l.replaceVarname old new) (r.replaceVarname old new)
  | clock i => clock i
  | int c => int c
  | var n => if n = old then var new else var n

/-- bool_expression.rs:419-435 `replace_varname` -/
def BoolE.replaceVarname (old new : String) : BoolE → BoolE
  | and l r => and (l.replaceVarname old new) (r.replaceVarname old new)
  | or l r => or (l.replaceVarname old new) (r.replaceVarname old new)
  | le l r => le (l.replaceVarname old new) (r.replaceVarname old new)
  | ge l r => ge (l.replaceVarname old new) (r.replaceVarname old new)
  | lt l r => lt (l.replaceVarname old new) (r.replaceVarname old new)
  | gt l r => gt (l.replaceVarname old new) (r.replaceVarname old new)
  | eq l r => eq (l.replaceVarname old new) (r.replaceVarname old new)
  | bool b => bool b

end Reveaal
