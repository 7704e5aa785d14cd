import Mathlib.Data.Real.Basic
import Mathlib.Tactic.Linarith

/-!
# Clock valuations and the zone library

Reveaal manipulates symbolic sets of clock valuations through the external crate `edbm`
(`OwnedFederation`), whose source is not part of `/repo`.  This file fixes what a valuation is,
and states as the fields of a type class `ZoneLib` the operations of `edbm` that Reveaal calls
together with the laws they are assumed to satisfy.  Nothing here is an axiom: the theorems
quantify over every implementation of the class, and `Verif.ZoneImpl` constructs one.
-/

namespace Reveaal

/-- A clock valuation: clock index to value (`edbm` clock indices are `usize`; clock 0 is the
reference clock). -/
abbrev Val := Nat → ℝ

/-- Valuations of a query of dimension `n`: clock 0 reads 0, clocks are non-negative, and there is
nothing beyond the dimension. -/
def Valid (n : Nat) (v : Val) : Prop :=
  v 0 = 0 ∧ (∀ i, 0 ≤ v i) ∧ ∀ i, n ≤ i → v i = 0

/-- Let `d` time units pass: every real clock advances by `d`. -/
noncomputable def delay (n : Nat) (v : Val) (d : ℝ) : Val :=
  fun i => if 0 < i ∧ i < n then v i + d else v i

/-- Assign the value `c` to clock `i`. -/
noncomputable def assign (v : Val) (i : Nat) (c : ℝ) : Val :=
  fun k => if k = i then c else v k

/-- `edbm::util::constraints::Inequality`: `LE c` is `≤ c`, `LS c` is `< c`. -/
inductive Ineq where
  | LE (c : Int)
  | LS (c : Int)
deriving DecidableEq, Repr

/-- The meaning of an inequality on a real number. -/
def Ineq.Sat : Ineq → ℝ → Prop
  | .LE c, x => x ≤ (c : ℝ)
  | .LS c, x => x < (c : ℝ)

/-- `edbm::util::constraints::Constraint`: clock `i` minus clock `j` satisfies the inequality. -/
structure Constr where
  i : Nat
  j : Nat
  ineq : Ineq
deriving DecidableEq, Repr

/-- The meaning of a constraint. -/
def Constr.Sat (c : Constr) (v : Val) : Prop := c.ineq.Sat (v c.i - v c.j)

/-- `edbm::util::constraints::Conjunction`. -/
abbrev Conj := List Constr
/-- `edbm::util::constraints::Disjunction`. -/
abbrev Disj := List Conj

/-- The valuations satisfying all constraints of a conjunction. -/
def Conj.Sat (c : Conj) (v : Val) : Prop := ∀ k ∈ c, Constr.Sat k v
/-- The valuations satisfying some conjunction of a disjunction. -/
def Disj.Sat (d : Disj) (v : Val) : Prop := ∃ c ∈ d, Conj.Sat c v

/-- All clock indices occurring in a disjunction are below `n`. -/
def Disj.InDim (n : Nat) (d : Disj) : Prop := ∀ c ∈ d, ∀ k ∈ c, k.i < n ∧ k.j < n

/-- `edbm::util::bounds::Bounds`: the extrapolation constant of every clock; `none` means the clock
was never given a bound. -/
abbrev Bounds := Nat → Option Int

/-- `Bounds::new(dim)`. -/
def Bounds.new : Bounds := fun _ => none

/-- The larger of two optional bounds. -/
def optMax : Option Int → Option Int → Option Int
  | none, b => b
  | a, none => a
  | some a, some b => some (max a b)

/-- `Bounds::add_bounds`: pointwise maximum. -/
def Bounds.add (a b : Bounds) : Bounds := fun i => optMax (a i) (b i)

/-- Two valuations are not distinguished by clock comparisons up to the bounds: on every clock they
agree or both exceed the bound (any two values agree if there is no bound). -/
def Bounds.Equiv (b : Bounds) (v w : Val) : Prop :=
  ∀ i, v i = w i ∨ ∀ m, b i = some m → (m : ℝ) < v i ∧ (m : ℝ) < w i

/-- The operations of `edbm::zones::OwnedFederation` used by Reveaal, and the laws assumed of them.
All federations of one query have the same dimension, so the dimension is a parameter of the
library instead of an argument of every call. -/
class ZoneLib (F : Type) where
  /-- number of clocks including the reference clock -/
  dim : Nat
  /-- the set of valuations a federation stands for -/
  den : F → Set Val
  /-- `OwnedFederation::universe` -/
  univ : F
  /-- `OwnedFederation::empty` -/
  empty : F
  /-- `OwnedFederation::init`: all clocks zero, then any delay -/
  init : F
  inter : F → F → F
  /-- `append`: union -/
  append : F → F → F
  inverse : F → F
  subtraction : F → F → F
  constrain : F → Nat → Nat → Ineq → F
  constrainEq : F → Nat → Int → F
  updateClock : F → Nat → Int → F
  free : F → Nat → F
  up : F → F
  down : F → F
  isEmpty : F → Bool
  isUniverse : F → Bool
  subsetEq : F → F → Bool
  equals : F → F → Bool
  hasIntersection : F → F → Bool
  canDelayIndefinitely : F → Bool
  extrapolate : F → Bounds → F
  minimal : F → Disj
  fromDisjunction : Disj → F
  dim_pos : 0 < dim
  den_valid : ∀ {z v}, v ∈ den z → Valid dim v
  den_univ : den univ = {v | Valid dim v}
  den_empty : den empty = ∅
  den_init : den init = {v | Valid dim v ∧ ∀ i j, 0 < i → i < dim → 0 < j → j < dim → v i = v j}
  den_inter : ∀ a b, den (inter a b) = den a ∩ den b
  den_append : ∀ a b, den (append a b) = den a ∪ den b
  den_inverse : ∀ a, den (inverse a) = {v | Valid dim v ∧ v ∉ den a}
  den_subtraction : ∀ a b, den (subtraction a b) = {v | v ∈ den a ∧ v ∉ den b}
  den_constrain : ∀ z i j c, i < dim → j < dim →
    den (constrain z i j c) = {v | v ∈ den z ∧ c.Sat (v i - v j)}
  den_constrainEq : ∀ z i (c : Int), 0 < i → i < dim →
    den (constrainEq z i c) = {v | v ∈ den z ∧ v i = (c : ℝ)}
  den_updateClock : ∀ z i (c : Int), 0 < i → i < dim → 0 ≤ c →
    den (updateClock z i c) = {w | ∃ v ∈ den z, w = assign v i (c : ℝ)}
  den_free : ∀ z i, 0 < i → i < dim →
    den (free z i) = {w | ∃ v ∈ den z, ∃ x : ℝ, 0 ≤ x ∧ w = assign v i x}
  den_up : ∀ z, den (up z) = {w | ∃ v ∈ den z, ∃ d : ℝ, 0 ≤ d ∧ w = delay dim v d}
  den_down : ∀ z, den (down z) = {v | Valid dim v ∧ ∃ d : ℝ, 0 ≤ d ∧ delay dim v d ∈ den z}
  isEmpty_iff : ∀ z, isEmpty z = true ↔ den z = ∅
  isUniverse_iff : ∀ z, isUniverse z = true ↔ ∀ v, Valid dim v → v ∈ den z
  subsetEq_iff : ∀ a b, subsetEq a b = true ↔ den a ⊆ den b
  equals_iff : ∀ a b, equals a b = true ↔ den a = den b
  hasIntersection_iff : ∀ a b, hasIntersection a b = true ↔ ∃ v, v ∈ den a ∧ v ∈ den b
  canDelay_iff : ∀ z, canDelayIndefinitely z = true ↔
    ∃ v ∈ den z, ∀ d : ℝ, 0 ≤ d → delay dim v d ∈ den z
  extrapolate_sup : ∀ z b, den z ⊆ den (extrapolate z b)
  extrapolate_equiv : ∀ z b v, v ∈ den (extrapolate z b) → ∃ w ∈ den z, b.Equiv v w
  den_minimal : ∀ z, {v | Valid dim v ∧ (minimal z).Sat v} = den z
  minimal_inDim : ∀ z, (minimal z).InDim dim
  minimal_proper : ∀ z, ∀ c ∈ minimal z, ∀ k ∈ c, ¬ (k.i = 0 ∧ k.j = 0)
  den_fromDisjunction : ∀ d : Disj, d.InDim dim →
    den (fromDisjunction d) = {v | Valid dim v ∧ d.Sat v}

/-! ## Elementary facts about valuations -/

theorem delay_valid {n : Nat} {v : Val} {d : ℝ} (h : Valid n v) (hd : 0 ≤ d) :
    Valid n (delay n v d) := by
  obtain ⟨h0, h1, h2⟩ := h
  refine ⟨?_, ?_, ?_⟩
  · simp [delay, h0]
  · intro i; unfold delay; split
    · linarith [h1 i]
    · exact h1 i
  · intro i hi; unfold delay
    rw [if_neg (by omega)]; exact h2 i hi

theorem delay_zero (n : Nat) (v : Val) : delay n v 0 = v := by
  funext i; simp [delay]

theorem delay_add (n : Nat) (v : Val) (a b : ℝ) : delay n (delay n v a) b = delay n v (a + b) := by
  funext i; unfold delay; split <;> simp_all [add_assoc]

theorem assign_valid {n : Nat} {v : Val} {i : Nat} {c : ℝ} (h : Valid n v) (hi : 0 < i)
    (hin : i < n) (hc : 0 ≤ c) : Valid n (assign v i c) := by
  obtain ⟨h0, h1, h2⟩ := h
  refine ⟨?_, ?_, ?_⟩
  · unfold assign; rw [if_neg (by omega)]; exact h0
  · intro k; unfold assign; split
    · exact hc
    · exact h1 k
  · intro k hk; unfold assign; rw [if_neg (by omega)]; exact h2 k hk

theorem assign_self (v : Val) (i : Nat) : assign v i (v i) = v := by
  funext k; unfold assign; split
  · subst_vars; rfl
  · rfl

@[simp] theorem assign_same (v : Val) (i : Nat) (c : ℝ) : assign v i c i = c := by simp [assign]

theorem assign_other (v : Val) {i k : Nat} (c : ℝ) (h : k ≠ i) : assign v i c k = v k := by
  simp [assign, h]

theorem assign_assign (v : Val) (i : Nat) (a b : ℝ) : assign (assign v i a) i b = assign v i b := by
  funext k; unfold assign; split <;> rfl

theorem assign_comm (v : Val) {i j : Nat} (a b : ℝ) (h : i ≠ j) :
    assign (assign v i a) j b = assign (assign v j b) i a := by
  funext k; unfold assign
  by_cases h1 : k = j <;> by_cases h2 : k = i <;> simp_all

theorem Bounds.Equiv.refl (b : Bounds) (v : Val) : b.Equiv v v := fun _ => Or.inl rfl

theorem Bounds.Equiv.symm {b : Bounds} {v w : Val} (h : b.Equiv v w) : b.Equiv w v := by
  intro i
  rcases h i with h | h
  · exact Or.inl h.symm
  · exact Or.inr fun m hm => ⟨(h m hm).2, (h m hm).1⟩

end Reveaal
