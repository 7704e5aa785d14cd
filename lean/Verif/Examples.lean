import Verif.ZoneImpl
import Verif.Spec.Semantics

/-!
# Concrete systems used to show that hypotheses can be met

Two components over the concrete zone library with clocks 1, 2 and 3: a machine `A` that answers the
input `go` with the output `out` within 2 to 5 time units, and a user `B` that sends `go` and waits for
`out`.
-/

namespace Reveaal
open ZoneLib

/-- Federations of dimension 4. -/
abbrev Fed4 := ZoneImpl.Fed 4
instance fed4Lib : ZoneLib Fed4 := ZoneImpl.lib 3

theorem dim_fed4 : dim Fed4 = 4 := rfl

/-- No explicit clock index, as in every parsed expression. -/
def Arith.named : Arith → Bool
  | .clock _ => false
  | .add l r | .dif l r | .mul l r | .div l r | .mod l r => l.named && r.named
  | _ => true

def BoolE.named : BoolE → Bool
  | .and l r | .or l r => l.named && r.named
  | .le l r | .ge l r | .lt l r | .gt l r | .eq l r => l.named && r.named
  | .bool _ => true

theorem Arith.named_clocksIn {P : Nat → Prop} : ∀ {e : Arith}, e.named = true → e.ClocksIn P := by
  intro e
  induction e with
  | clock i => intro h; cases h
  | int | var => intro _; trivial
  | add l r hl hr | dif l r hl hr | mul l r hl hr | div l r hl hr | mod l r hl hr =>
    intro h
    unfold Arith.named at h
    rw [Bool.and_eq_true] at h
    exact ⟨hl h.1, hr h.2⟩

theorem BoolE.named_clocksIn {P : Nat → Prop} : ∀ {g : BoolE}, g.named = true → g.ClocksIn P := by
  intro g
  induction g with
  | bool b => intro _; trivial
  | and l r hl hr | or l r hl hr =>
    intro h
    unfold BoolE.named at h
    rw [Bool.and_eq_true] at h
    exact ⟨hl h.1, hr h.2⟩
  | le l r | ge l r | lt l r | gt l r | eq l r =>
    intro h
    unfold BoolE.named at h
    rw [Bool.and_eq_true] at h
    exact ⟨Arith.named_clocksIn h.1, Arith.named_clocksIn h.2⟩

def Update.okB (u : Update) : Bool :=
  match u.expr with
  | .int v => decide (0 ≤ v)
  | _ => true

/-- A test for `Component.Ok`. -/
def Component.okB (c : Component) (n : Nat) : Bool :=
  c.decls.clocks.all (fun p => decide (0 < p.2) && decide (p.2 < n)) &&
  c.edges.all (fun e => e.guard.all BoolE.named && e.update.all fun us => us.all Update.okB) &&
  c.locations.all fun l => l.invariant.all BoolE.named

theorem Component.ok_of_okB {c : Component} {n : Nat} (h : c.okB n = true) : c.Ok n := by
  simp only [Component.okB, Bool.and_eq_true, List.all_eq_true, decide_eq_true_eq] at h
  obtain ⟨⟨h1, h2⟩, h3⟩ := h
  refine ⟨h1, fun e he g hg => ?_, fun l hl g hg => ?_, fun e he us hus u hu v hv => ?_⟩
  · have := (h2 e he).1; rw [hg] at this; exact BoolE.named_clocksIn this
  · have := h3 l hl; rw [hg] at this; exact BoolE.named_clocksIn this
  · have := (h2 e he).2
    rw [hus] at this
    have := List.all_eq_true.1 this u hu
    unfold Update.okB at this
    rw [hv] at this
    simpa using this

/-- The machine: clock `x` has index 1. -/
def exA : Component := ⟨"A", ⟨[], [("x", 1)]⟩,
  [⟨"L0", none, .initial, "NORMAL"⟩, ⟨"L1", some (.le (.var "x") (.int 5)), .normal, "NORMAL"⟩],
  [⟨"e0", "L0", "L1", .input, none, some [⟨"x", .int 0⟩], "go"⟩,
   ⟨"e1", "L1", "L0", .output, some (.ge (.var "x") (.int 2)), none, "out"⟩]⟩

/-- The user: clock `y` has index 2. -/
def exB : Component := ⟨"B", ⟨[], [("y", 2)]⟩,
  [⟨"M0", none, .initial, "NORMAL"⟩, ⟨"M1", none, .normal, "NORMAL"⟩],
  [⟨"f0", "M0", "M1", .output, some (.ge (.var "y") (.int 1)), some [⟨"y", .int 0⟩], "go"⟩,
   ⟨"f1", "M1", "M0", .input, none, some [⟨"y", .int 0⟩], "out"⟩]⟩

/-- A second machine with its own clock `x` at index 3; it also answers in time, but within 3 to 4 time
units. -/
def exC : Component := ⟨"C", ⟨[], [("x", 3)]⟩,
  [⟨"N0", none, .initial, "NORMAL"⟩, ⟨"N1", some (.le (.var "x") (.int 4)), .normal, "NORMAL"⟩],
  [⟨"g0", "N0", "N1", .input, none, some [⟨"x", .int 0⟩], "go"⟩,
   ⟨"g1", "N1", "N0", .output, some (.ge (.var "x") (.int 3)), none, "out"⟩]⟩

theorem exA_ok : exA.Ok (dim Fed4) := Component.ok_of_okB (by decide)

theorem exB_ok : exB.Ok (dim Fed4) := Component.ok_of_okB (by decide)

theorem exC_ok : exC.Ok (dim Fed4) := Component.ok_of_okB (by decide)

/-- The value of a computation that succeeded. -/
def getOk {α : Type} : (r : Res α) → r.toBool = true → α
  | .ok a, _ => a

theorem getOk_eq {α : Type} : ∀ {r : Res α} (h : r.toBool = true), r = .ok (getOk r h)
  | .ok _, _ => rfl

/-- `A`, `B` and `C` compiled. -/
def sysA : Sys Fed4 := .comp (getOk (CompComp.compile id exA 0) (by decide +kernel))
def sysB : Sys Fed4 := .comp (getOk (CompComp.compile id exB 1) (by decide +kernel))
def sysC : Sys Fed4 := .comp (getOk (CompComp.compile id exC 2) (by decide +kernel))

theorem sysA_accepted : sysA.Accepted := .comp exA_ok (fun _ => .refl _) (getOk_eq _)
theorem sysB_accepted : sysB.Accepted := .comp exB_ok (fun _ => .refl _) (getOk_eq _)
theorem sysC_accepted : sysC.Accepted := .comp exC_ok (fun _ => .refl _) (getOk_eq _)

/-- `A || B` and `A && C`. -/
def sysAB : Sys Fed4 := getOk (Sys.newComposition sysA sysB) (by decide +kernel)
def sysAC : Sys Fed4 := getOk (Sys.newConjunctionUnchecked sysA sysC) (by decide +kernel)
/-- `(A || B) \\ A` with quotient clock 3. -/
def sysQ : Sys Fed4 := getOk (Sys.newQuotientUnchecked sysAB sysA 3) (by decide +kernel)

theorem sysAB_eq : Sys.newComposition sysA sysB = .ok sysAB := getOk_eq _
theorem sysAC_eq : Sys.newConjunctionUnchecked sysA sysC = .ok sysAC := getOk_eq _
theorem sysQ_eq : Sys.newQuotientUnchecked sysAB sysA 3 = .ok sysQ := getOk_eq _

theorem sysAB_accepted : sysAB.Accepted := .composition sysA_accepted sysB_accepted sysAB_eq
theorem sysAC_accepted : sysAC.Accepted := .conjunction sysA_accepted sysC_accepted sysAC_eq
theorem sysQ_accepted : sysQ.Accepted :=
  .quotient sysAB_accepted sysA_accepted (by decide) (by decide) sysQ_eq

theorem sysAB_disjoint : sysA.DisjointClocks sysB := by
  unfold Sys.DisjointClocks; decide +kernel
theorem sysAC_disjoint : sysA.DisjointClocks sysC := by
  unfold Sys.DisjointClocks; decide +kernel

end Reveaal
