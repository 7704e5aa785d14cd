import Verif.Lemmas.Expr

/-!
# C43: constant arithmetic is evaluated correctly

Full property: every clock-free expression is folded to the integer it denotes, or evaluation stops
with an error or panic.  The code folds a division by zero to 0 (`C43_violated_division_by_zero`);
for expressions that denote an integer the property holds without restriction.
-/

namespace Reveaal
open Arith

/-- **C43** (partial): an expression that denotes an integer (no clock, no undeclared name, no
division by zero) is folded to exactly that integer, both when names are resolved and when the result
is simplified; otherwise evaluation stops with a panic for `i32` overflow.  Missing: expressions that
divide by zero. -/
theorem C43_constant_folding_partial (d : Decls) (e : Arith) (c : Int) (h : constVal d e = some c) :
    (e.replaceVars d = .ok (.int c) ∧ (Arith.int c).simplify = .ok (.int c)) ∨
      e.replaceVars d = .error (.panic "arithmetic overflow") := by
  rcases replaceVars_const d e c h with ⟨a, h1, rfl⟩ | h1
  · exact .inl ⟨h1, rfl⟩
  · exact .inr h1

/-- **C43** (partial), for simplification alone: an expression over literals is folded to the integer
it denotes. -/
theorem C43_simplify_partial (d : Decls) (e : Arith) (c : Int) (h0 : e.clockVarCount = 0)
    (h : constVal d e = some c) :
    e.simplify = .ok (.int c) ∨ e.simplify = .error (.panic "arithmetic overflow") := by
  have h1 : extractLoop (e.clockVarCount + 1) e .none = .ok (e, []) := by
    simp [extractLoop, move_const e _ h0, bind, Except.bind]
  have h2 : e.simplify = foldLoop (e.size + 1) e := by
    simp only [simplify, h1, rebuild, bind, Except.bind]
  rw [h2]
  have h3 : OkOrOvf (foldLoop (e.size + 1) e) (· = int c) := by
    rw [foldLoop_succ]
    refine (simplifyHelper_const d e c h0 h).bind fun p hp => ?_
    obtain ⟨p1, p2⟩ := p
    cases hp
    cases p2
    · exact .ok rfl
    · obtain ⟨m, hm⟩ := Nat.exists_eq_succ_of_ne_zero (size_pos e).ne'
      rw [hm]; exact .ok rfl
  rcases h3 with ⟨a, h, rfl⟩ | h
  · exact .inl h
  · exact .inr h

/-- `(7 - 9) / n + 5 % 3` with `n = 2` denotes 1. -/
example : constVal ⟨[("n", 2)], []⟩ (.add (.div (.dif (.int 7) (.int 9)) (.var "n")) (.mod (.int 5) (.int 3)))
    = some 1 := by decide

/-- A name that is not declared, and a clock, are never folded to an integer: the first is an
error, the second stays a clock. -/
theorem C43_names (d : Decls) (n : String) :
    (∀ c, d.clocks.lookup n = some c → (Arith.var n).replaceVars d = .ok (.clock c)) ∧
    (d.clocks.lookup n = none → d.ints.lookup n = none →
      (Arith.var n).replaceVars d = .error (.err n)) := by
  constructor
  · intro c h; simp [replaceVars, h]
  · intro h h'; simp [replaceVars, h, h']

/-- **C43 is violated**: dividing by zero denotes no integer, but is folded to 0. -/
theorem C43_violated_division_by_zero (d : Decls) (k : Int) :
    constVal d (.div (.int k) (.int 0)) = none ∧
      (Arith.div (.int k) (.int 0)).replaceVars d = .ok (.int 0) := by
  constructor
  · simp [constVal]
  · simp [replaceVars, aDiv, bind, Except.bind]

/-- The remainder of a division by zero, in contrast, panics. -/
theorem C43_mod_zero (d : Decls) (k : Int) : ∃ m,
    (Arith.mod (.int k) (.int 0)).replaceVars d = .error (.panic m) := by
  exact ⟨"attempt to calculate the remainder with a divisor of zero", by
    simp [replaceVars, aMod, i32Mod, bind, Except.bind]⟩

end Reveaal
