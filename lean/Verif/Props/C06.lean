import Verif.Props.C05

/-! # C06: the advertised enabling condition of a transition is exact

The code constrains the target invariant by *all* assignments before it frees the assigned clocks,
so it is exact only if no clock is assigned two different values. -/

namespace Reveaal
open ZoneLib
variable {F : Type} [ZoneLib F]

/-- If no clock is assigned two different values, the reported set is exactly the set of valuations
that satisfy the guard and whose image under the updates satisfies the target invariant.
Missing from the full property: update lists assigning different values to one clock. -/
theorem C06_allowed_exact_partial (t : Transition F) (hu : UpdatesOk t.updates (dim F))
    (hc : NoConflict t.updates) : den t.allowed = {v | CanTake t v} := by
  ext v; exact mem_allowed hu hc

/-- With conflicting assignments the reported set is empty, whatever guard and target are. -/
theorem C06_conflict_empty (t : Transition F) (hu : UpdatesOk t.updates (dim F))
    (hc : ¬ NoConflict t.updates) : den t.allowed = ∅ := by
  apply Set.eq_empty_iff_forall_notMem.2
  intro v hv
  rw [mem_allowed_code hu] at hv
  obtain ⟨_, w, _, _, ha, _⟩ := hv
  apply hc
  intro u hu' u' hu'' h
  have h1 := ha u hu'
  have h2 := ha u' hu''
  rw [h, h2] at h1
  exact_mod_cast h1.symm

/-- In every case the reported set is contained in the right one. -/
theorem C06_allowed_sound (t : Transition F) (hu : UpdatesOk t.updates (dim F)) :
    den t.allowed ⊆ {v | CanTake t v} := by
  by_cases hc : NoConflict t.updates
  · exact (C06_allowed_exact_partial t hu hc).le
  · rw [C06_conflict_empty t hu hc]; exact Set.empty_subset _

/-- The full property is false: an edge with updates `x := 0, x := 1`, no guard and no target
invariant can be taken by every valuation, and taking it succeeds, but no valuation is reported as
allowed. -/
theorem C06_violated_conflicting_updates (hdim : 1 < dim F) :
    let t : Transition F := ⟨.simple "e", univ, .leaf (.simple "L") none .normal, [⟨1, 0⟩, ⟨1, 1⟩]⟩
    UpdatesOk t.updates (dim F) ∧ (∀ v, Valid (dim F) v → CanTake t v) ∧ den t.allowed = ∅ ∧
      (t.useTransition ⟨t.target, univ⟩).1 = true := by
  intro t
  have hu : UpdatesOk t.updates (dim F) := by
    intro u hu; simp [t] at hu; rcases hu with rfl | rfl <;> exact ⟨by decide, hdim, by decide⟩
  have hc : ∀ v, Valid (dim F) v → CanTake t v := fun v hv =>
    ⟨by simp only [t]; rw [den_univ]; exact hv, by intro i hi; simp [t, LocTree.inv] at hi⟩
  refine ⟨hu, hc, C06_conflict_empty t hu ?_, ?_⟩
  · intro h
    have := h ⟨1, 0⟩ (by simp [t]) ⟨1, 1⟩ (by simp [t]) rfl
    simp at this
  · have hv := oneClock_valid hdim (le_refl (0 : ℝ))
    refine (C05_use_transition t _ hu).1.2 ⟨_, oneClock 0, ?_, (hc _ hv).1, 0, le_rfl, rfl, ?_⟩
    · rw [den_univ]; exact hv
    · intro i hi; simp [t, LocTree.inv] at hi

/-- Non-vacuity: two updates of different clocks (and a repeated one) with a guard; some valuations
are allowed, some are not. -/
example : let _ := ZoneImpl.lib 2
    let l : LocTree (ZoneImpl.Fed 3) :=
      .leaf (.simple "L") (some (constrain univ 1 2 (.LE 7))) .normal
    let t : Transition (ZoneImpl.Fed 3) :=
      ⟨.simple "e", constrain univ 1 0 (.LE 5), l, [⟨1, 3⟩, ⟨2, 1⟩, ⟨1, 3⟩]⟩
    UpdatesOk t.updates (dim (ZoneImpl.Fed 3)) ∧ NoConflict t.updates ∧
      isEmpty t.allowed = false ∧ isUniverse t.allowed = false := by
  exact ⟨by decide, by decide, by decide, by decide⟩

end Reveaal
