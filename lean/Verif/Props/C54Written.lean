import Verif.Props.C54
import Verif.Props.C01
import Verif.Props.C64

/-!
# C54: the way an invariant is written can matter
-/

namespace Reveaal
open ZoneLib

/-- The invariant is `x <= 5`. -/
def exPlain54 : Component := ⟨"A", ⟨[], [("x", 1)]⟩, [⟨"L0", some (.le (.var "x") (.int 5)), .initial, "NORMAL"⟩], []⟩

/-- The invariant is `x - 3 - 2 <= 0`, which says the same. -/
def exMinus54 : Component := { exPlain54 with
  locations := [⟨"L0", some (.le (.dif (.dif (.var "x") (.int 3)) (.int 2)) (.int 0)), .initial, "NORMAL"⟩] }

def sysPlain54 : CompComp (FedD 1) := getOk (CompComp.compile id exPlain54 0) (by decide +kernel)
def sysMinus54 : CompComp (FedD 1) := getOk (CompComp.compile id exMinus54 0) (by decide +kernel)

theorem exMinus54_sameMeaning : exPlain54.SameMeaning exMinus54 := by
  refine ⟨fun n => Iff.rfl, rfl, .cons ⟨rfl, rfl, rfl, fun v v' h => ?_⟩ .nil, .nil⟩
  have e := h "x" 1 1 rfl rfl
  have k : exPlain54.decls.clocks.lookup "x" = some 1 := rfl
  have k' : exMinus54.decls.clocks.lookup "x" = some 1 := rfl
  simp only [HoldsOpt, Holds]
  constructor
  · rintro ⟨a, b, h1, h2, h3⟩
    simp [value, k] at h1 h2
    subst h1 h2
    exact ⟨v' 1 - 3 - 2, 0, by simp [value, k'], by simp [value], by rw [← e]; linarith⟩
  · rintro ⟨a, b, h1, h2, h3⟩
    simp [value, k'] at h1 h2
    subst h1 h2
    exact ⟨v 1, 5, by simp [value, k], by simp [value], by rw [e]; linarith⟩

/-- **C54 is violated** by guards outside the fragment of C01: two components that differ only in the invariant of their
location, `x <= 5` and `x - 3 - 2 <= 0`, which hold for the same clock values, are both accepted but do not behave alike: in
one four time units can pass at the start, in the other they cannot. -/
theorem C54_violated_written : exPlain54.SameMeaning exMinus54 ∧ exPlain54.Ok 2 ∧ exMinus54.Ok 2 ∧
    CompComp.compile id exPlain54 0 = .ok sysPlain54 ∧ CompComp.compile id exMinus54 0 = .ok sysMinus54 ∧
    (∃ l, (Sys.comp sysPlain54).ts.initialLoc = .ok (some l) ∧ TS.CanDelay l zeroVal 4) ∧
    (∀ l, (Sys.comp sysMinus54).ts.initialLoc = .ok (some l) → ¬ TS.CanDelay l zeroVal 4) ∧
    ¬ (Sys.comp sysPlain54).ts.EquivalentUpTo (Sys.comp sysMinus54).ts (AgreeOn exPlain54.decls exMinus54.decls) := by
  have h1 : (Sys.comp sysPlain54).ts.initialLoc =
    .ok (some (.leaf (.simple "L0") (some (constrain univ 1 0 (.LE 5))) .initial)) := rfl
  have h2 : (Sys.comp sysMinus54).ts.initialLoc =
    .ok (some (.leaf (.simple "L0") (some (constrain univ 1 0 (.LE 1))) .initial)) := rfl
  have hd : dim (FedD 1) = 2 := dim_fedD 1
  have hv : ∀ t : ℝ, 0 ≤ t → Valid 2 (delay 2 zeroVal t) := fun t ht =>
    ⟨by simp [delay, zeroVal], fun i => by unfold delay zeroVal; split <;> simp [ht], fun i hi => by
      unfold delay zeroVal; rw [if_neg (by omega)]⟩
  have key : ∀ (k : Int) (t : ℝ), 0 ≤ t → (delay (dim (FedD 1)) zeroVal t ∈
      den (constrain (univ : FedD 1) 1 0 (.LE k)) ↔ t ≤ k) := by
    intro k t ht
    rw [den_constrain _ _ _ _ (by rw [hd]; decide) (by rw [hd]; decide), den_univ, hd]
    simp only [Set.mem_ofPred_eq, Ineq.Sat]
    simp [hv t ht, delay, zeroVal]
  have c1 : TS.CanDelay (.leaf (.simple "L0") (some (constrain (univ : FedD 1) 1 0 (.LE 5))) .initial) zeroVal 4 :=
    ⟨by norm_num, fun t h0 h4 i hi => by
      cases hi
      rw [key 5 t h0]
      push_cast
      linarith⟩
  have c2 : ¬ TS.CanDelay (.leaf (.simple "L0") (some (constrain (univ : FedD 1) 1 0 (.LE 1))) .initial) zeroVal 4 := by
    intro h
    have := (key 1 4 (by norm_num)).1 (h.2 4 (by norm_num) le_rfl _ rfl)
    norm_num at this
  refine ⟨exMinus54_sameMeaning, Component.ok_of_okB (by decide), Component.ok_of_okB (by decide), getOk_eq _, getOk_eq _,
    ⟨_, h1, c1⟩, fun l hl => ?_, ?_⟩
  · rw [h2] at hl
    cases hl
    exact c2
  · rintro ⟨R, hR, hi, _⟩
    obtain ⟨m, hm, hr⟩ := hi _ h1
    rw [h2] at hm
    cases hm
    refine c2 ⟨by norm_num, fun t h0 h4 => ?_⟩
    exact (hR.inv _ _ hr _ _ (by rw [hd]; exact hv t h0) (by rw [hd]; exact hv t h0) (hR.delay _ _ t hR.zero)).1
      (c1.2 t h0 h4)

end Reveaal
