import Verif.Lemmas.Transition
import Verif.Props.C01
import Verif.ZoneImpl

/-! # C05: taking a transition computes exactly the successor valuations -/

namespace Reveaal
open ZoneLib
variable {F : Type} [ZoneLib F]

theorem useAlt_eq (t : Transition F) (s : State F) :
    t.useAlt s = if (t.useTransition s).1 then some (t.useTransition s).2 else none := by
  unfold Transition.useAlt
  rcases t.useTransition s with ⟨b, s'⟩
  cases b <;> rfl

theorem useTransition_true {t : Transition F} {s s' : State F}
    (h : t.useTransition s = (true, s')) :
    s' = ⟨t.target, t.target.applyInvariants (up (t.applyUpdates (t.applyGuards s.zone)))⟩ := by
  unfold Transition.useTransition at h
  simp only at h
  split at h
  · split at h
    · simp only [Prod.mk.injEq, true_and] at h; exact h.symm
    · simp at h
  · simp at h

theorem useTransition_verdict {t : Transition F} {s : State F}
    (hu : UpdatesOk t.updates (dim F)) :
    (t.useTransition s).1 = true ↔ ∃ w, w ∈ SuccSet t (den s.zone) := by
  rw [← den_succ hu]
  unfold Transition.useTransition
  simp only
  by_cases h1 : isEmpty (t.applyGuards s.zone) = true
  · simp only [h1, Bool.not_true, Bool.false_eq_true, if_false, false_iff, not_exists]
    rw [ZoneLib.isEmpty_iff] at h1
    intro w hw
    rw [den_succ hu] at hw
    obtain ⟨v, hv, hg, _⟩ := hw
    have : v ∈ den (t.applyGuards s.zone) := by
      rw [Transition.applyGuards, den_inter]; exact ⟨hv, hg⟩
    rw [h1] at this; exact this
  · simp only [Bool.not_eq_true] at h1
    simp only [h1, Bool.not_false, if_true]
    rw [← isEmpty_false_iff]
    cases h2 : isEmpty (t.target.applyInvariants (up (t.applyUpdates (t.applyGuards s.zone)))) <;>
      simp

/-- Taking a transition succeeds exactly when some valuation of the state satisfies the guard and,
after the updates and some delay, is inside the target invariant.  The new state then is at the
target and consists of exactly these valuations. -/
theorem C05_use_transition (t : Transition F) (s : State F) (hu : UpdatesOk t.updates (dim F)) :
    ((t.useTransition s).1 = true ↔ ∃ w, w ∈ SuccSet t (den s.zone)) ∧
    ((t.useTransition s).1 = true → (t.useTransition s).2.loc = t.target ∧
      den (t.useTransition s).2.zone = SuccSet t (den s.zone)) := by
  refine ⟨useTransition_verdict hu, fun h => ?_⟩
  have : t.useTransition s = (true, (t.useTransition s).2) := Prod.ext h rfl
  rw [useTransition_true this]
  exact ⟨rfl, den_succ hu⟩

/-- The same for the variant that leaves the given state alone. -/
theorem C05_use_transition_alt (t : Transition F) (s : State F)
    (hu : UpdatesOk t.updates (dim F)) :
    (∀ s', t.useAlt s = some s' → s'.loc = t.target ∧ den s'.zone = SuccSet t (den s.zone) ∧
      ∃ w, w ∈ den s'.zone) ∧
    (t.useAlt s = none ↔ SuccSet t (den s.zone) = ∅) := by
  obtain ⟨h1, h2⟩ := C05_use_transition t s hu
  rw [useAlt_eq]
  refine ⟨fun s' h => ?_, ?_⟩
  · split at h
    · rename_i hb
      cases h
      exact ⟨(h2 hb).1, (h2 hb).2, by rw [(h2 hb).2]; exact h1.1 hb⟩
    · cases h
  · split
    · rename_i hb
      simp only [false_iff, reduceCtorEq]
      obtain ⟨w, hw⟩ := h1.1 hb
      intro he; rw [he] at hw; exact hw
    · rename_i hb
      simp only [true_iff]
      rw [h1] at hb
      exact Set.eq_empty_iff_forall_notMem.2 fun w hw => hb ⟨w, hw⟩

/-- Non-vacuity: a transition `x <= 5`, `x := 3`, target invariant `x <= 7`, taken from all
valuations; and one from the same state that is impossible (`x >= 8` at the target's `x <= 7` without
reset). -/
example : let _ := ZoneImpl.lib 1
    let l : LocTree (ZoneImpl.Fed 2) :=
      .leaf (.simple "L") (some (constrain univ 1 0 (.LE 7))) .normal
    let t : Transition (ZoneImpl.Fed 2) := ⟨.simple "e", constrain univ 1 0 (.LE 5), l, [⟨1, 3⟩]⟩
    let t' : Transition (ZoneImpl.Fed 2) := ⟨.simple "f", constrain univ 0 1 (.LE (-8)), l, []⟩
    UpdatesOk t.updates (dim (ZoneImpl.Fed 2)) ∧ UpdatesOk t'.updates (dim (ZoneImpl.Fed 2)) ∧
      (t.useTransition ⟨l, univ⟩).1 = true ∧ (t'.useTransition ⟨l, univ⟩).1 = false := by
  exact ⟨by decide, by decide, by decide, by decide⟩

end Reveaal
