import Verif.Spec.Step

/-! # Denotation of the operations on transitions -/

namespace Reveaal
open ZoneLib
variable {F : Type} [ZoneLib F]

@[simp] theorem ok_bind {α β : Type} (a : α) (f : α → Res β) : ((Except.ok a : Res α) >>= f) = f a :=
  rfl

@[simp] theorem error_bind {α β : Type} (e : Fail) (f : α → Res β) :
    ((Except.error e : Res α) >>= f) = .error e := rfl

theorem UpdatesOk.cons {u : CUpdate} {us : List CUpdate} {n : Nat} (h : UpdatesOk (u :: us) n) :
    (0 < u.clock ∧ u.clock < n ∧ 0 ≤ u.value) ∧ UpdatesOk us n :=
  ⟨h u (by simp), fun x hx => h x (by simp [hx])⟩

theorem UpdatesOk.append {us vs : List CUpdate} {n : Nat} (h : UpdatesOk us n)
    (h' : UpdatesOk vs n) : UpdatesOk (us ++ vs) n := by
  intro u hu
  rcases List.mem_append.1 hu with hu | hu
  · exact h u hu
  · exact h' u hu

theorem runUpdates_valid {us : List CUpdate} {n : Nat} : ∀ {v : Val}, UpdatesOk us n → Valid n v →
    Valid n (runUpdates us v) := by
  induction us with
  | nil => intro v _ hv; exact hv
  | cons u us ih =>
    intro v hu hv
    obtain ⟨⟨h1, h2, h3⟩, hu⟩ := hu.cons
    exact ih hu (assign_valid hv h1 h2 (by exact_mod_cast h3))

theorem runUpdates_append (us vs : List CUpdate) : ∀ v, runUpdates (us ++ vs) v =
    runUpdates vs (runUpdates us v) := by
  induction us with
  | nil => intro v; rfl
  | cons u us ih => intro v; exact ih _

theorem mem_applyInvariants {l : LocTree F} {z : F} {v : Val} :
    v ∈ den (l.applyInvariants z) ↔ v ∈ den z ∧ v ∈ InvSet l := by
  unfold LocTree.applyInvariants InvSet
  cases h : l.inv with
  | none => simp
  | some i => simp [den_inter]

theorem den_applyUpdates {t : Transition F} {z : F} (hu : UpdatesOk t.updates (dim F)) :
    den (t.applyUpdates z) = {w | ∃ v ∈ den z, w = runUpdates t.updates v} := by
  unfold Transition.applyUpdates
  generalize t.updates = us at hu ⊢
  induction us generalizing z with
  | nil => ext w; simp [runUpdates]
  | cons u us ih =>
    obtain ⟨⟨h1, h2, h3⟩, hu⟩ := hu.cons
    rw [List.foldl_cons, ih hu]
    ext w
    simp only [CUpdate.apply, den_updateClock _ _ _ h1 h2 h3, Set.mem_ofPred_eq, runUpdates]
    constructor
    · rintro ⟨_, ⟨v, hv, rfl⟩, rfl⟩; exact ⟨v, hv, rfl⟩
    · rintro ⟨v, hv, rfl⟩; exact ⟨_, ⟨v, hv, rfl⟩, rfl⟩

theorem den_succ {t : Transition F} {z : F} (hu : UpdatesOk t.updates (dim F)) :
    den (t.target.applyInvariants (up (t.applyUpdates (t.applyGuards z)))) = SuccSet t (den z) := by
  ext w
  rw [mem_applyInvariants, den_up, den_applyUpdates hu]
  simp only [Transition.applyGuards, den_inter, SuccSet, Set.mem_ofPred_eq, Set.mem_inter_iff]
  constructor
  · rintro ⟨⟨_, ⟨v, ⟨hv, hg⟩, rfl⟩, d, hd, rfl⟩, hi⟩
    exact ⟨v, hv, hg, d, hd, rfl, hi⟩
  · rintro ⟨v, hv, hg, d, hd, rfl, hi⟩
    exact ⟨⟨_, ⟨v, ⟨hv, hg⟩, rfl⟩, d, hd, rfl⟩, hi⟩

theorem isEmpty_false_iff {z : F} : isEmpty z = false ↔ ∃ v, v ∈ den z := by
  rw [← Bool.not_eq_true, ZoneLib.isEmpty_iff, ← ne_eq, ← Set.nonempty_iff_ne_empty]; rfl

/-- The federation after turning the updates into guards. -/
theorem den_guards {us : List CUpdate} {z : F} (hu : UpdatesOk us (dim F)) :
    den (us.foldl (fun fed u => u.applyAsGuard fed) z) =
      {v | v ∈ den z ∧ ∀ u ∈ us, v u.clock = (u.value : ℝ)} := by
  induction us generalizing z with
  | nil => simp
  | cons u us ih =>
    obtain ⟨⟨h1, h2, h3⟩, hu⟩ := hu.cons
    rw [List.foldl_cons, ih hu]
    ext w
    simp only [CUpdate.applyAsGuard, den_constrainEq _ _ _ h1 h2, Set.mem_ofPred_eq,
      List.mem_cons, forall_eq_or_imp]
    tauto

/-- The federation after freeing all updated clocks. -/
theorem den_frees {us : List CUpdate} {z : F} (hu : UpdatesOk us (dim F)) :
    den (us.foldl (fun fed u => u.applyAsFree fed) z) =
      {w | Valid (dim F) w ∧ ∃ v ∈ den z, ∀ i, (∀ u ∈ us, u.clock ≠ i) → w i = v i} := by
  induction us generalizing z with
  | nil =>
    ext w; simp only [List.foldl_nil, Set.mem_ofPred_eq]
    constructor
    · intro h; exact ⟨den_valid h, w, h, fun _ _ => rfl⟩
    · rintro ⟨_, v, hv, h⟩
      have : w = v := funext fun i => h i (by simp)
      rwa [this]
  | cons u us ih =>
    obtain ⟨⟨h1, h2, h3⟩, hu⟩ := hu.cons
    rw [List.foldl_cons, ih hu]
    ext w
    simp only [CUpdate.applyAsFree, den_free _ _ h1 h2, Set.mem_ofPred_eq]
    constructor
    · rintro ⟨hw, _, ⟨v, hv, x, hx, rfl⟩, h⟩
      refine ⟨hw, v, hv, fun i hi => ?_⟩
      rw [h i fun u' hu' => hi u' (by simp [hu'])]
      exact assign_other _ _ (Ne.symm (hi u (by simp)))
    · rintro ⟨hw, v, hv, h⟩
      refine ⟨hw, _, ⟨v, hv, w u.clock, hw.2.1 _, rfl⟩, fun i hi => ?_⟩
      by_cases hiu : i = u.clock
      · subst hiu; simp
      · rw [assign_other _ _ hiu]
        refine h i fun u' hu' => ?_
        rcases List.mem_cons.1 hu' with rfl | hu'
        · exact fun h => hiu h.symm
        · exact hi u' hu'

theorem runUpdates_untouched {us : List CUpdate} {i : Nat} : ∀ {v : Val},
    (∀ u ∈ us, u.clock ≠ i) → runUpdates us v i = v i := by
  induction us with
  | nil => intro v _; rfl
  | cons u us ih =>
    intro v h
    rw [runUpdates, ih fun u' hu' => h u' (by simp [hu'])]
    exact assign_other _ _ (Ne.symm (h u (by simp)))

/-- Without conflicting assignments, an assigned clock has the assigned value. -/
theorem runUpdates_assigned {us : List CUpdate} (hc : NoConflict us) : ∀ {v : Val} {u : CUpdate},
    u ∈ us → runUpdates us v u.clock = (u.value : ℝ) := by
  induction us with
  | nil => intro v u hu; cases hu
  | cons x us ih =>
    intro v u hu
    have hc' : NoConflict us := fun a ha b hb => hc a (by simp [ha]) b (by simp [hb])
    by_cases h : ∃ y ∈ us, y.clock = u.clock
    · obtain ⟨y, hy, hyu⟩ := h
      have := ih hc' (v := assign v x.clock x.value) hy
      rw [hyu] at this
      rw [runUpdates, this, hc y (by simp [hy]) u hu hyu]
    · push Not at h
      rw [runUpdates, runUpdates_untouched h]
      rcases List.mem_cons.1 hu with rfl | hu
      · simp
      · exact absurd rfl (h u hu)

theorem mem_invOrUniv {l : LocTree F} {w : Val} :
    w ∈ den l.invOrUniv ↔ Valid (dim F) w ∧ w ∈ InvSet l := by
  unfold InvSet LocTree.invOrUniv
  cases h : l.inv with
  | none => simp [den_univ]
  | some i =>
    simp only [Option.some.injEq, Set.mem_ofPred_eq, forall_eq']
    exact ⟨fun h => ⟨den_valid h, h⟩, fun h => h.2⟩

/-- What `get_allowed_federation` computes for any update list. -/
theorem mem_allowed_code {t : Transition F} (hu : UpdatesOk t.updates (dim F)) {v : Val} :
    v ∈ den t.allowed ↔ v ∈ den t.guard ∧ ∃ w, Valid (dim F) w ∧ w ∈ InvSet t.target ∧
      (∀ u ∈ t.updates, w u.clock = (u.value : ℝ)) ∧
      ∀ i, (∀ u ∈ t.updates, u.clock ≠ i) → v i = w i := by
  unfold Transition.allowed Transition.inverseApplyUpdates Transition.applyGuards
  simp only [den_inter, Set.mem_inter_iff, den_frees hu, den_guards hu, Set.mem_ofPred_eq]
  simp only [mem_invOrUniv]
  constructor
  · rintro ⟨⟨_, w, ⟨⟨h1, h2⟩, h3⟩, h4⟩, h5⟩; exact ⟨h5, w, h1, h2, h3, h4⟩
  · rintro ⟨h5, w, h1, h2, h3, h4⟩; exact ⟨⟨den_valid h5, w, ⟨⟨h1, h2⟩, h3⟩, h4⟩, h5⟩

/-- Without conflicting assignments `get_allowed_federation` is exact. -/
theorem mem_allowed {t : Transition F} (hu : UpdatesOk t.updates (dim F))
    (hc : NoConflict t.updates) {v : Val} : v ∈ den t.allowed ↔ CanTake t v := by
  rw [mem_allowed_code hu, CanTake]
  constructor
  · rintro ⟨hg, w, _, hi, ha, hn⟩
    refine ⟨hg, ?_⟩
    have : runUpdates t.updates v = w := by
      funext i
      by_cases h : ∃ u ∈ t.updates, u.clock = i
      · obtain ⟨u, hu', rfl⟩ := h
        rw [runUpdates_assigned hc hu', ha u hu']
      · push Not at h
        rw [runUpdates_untouched h, hn i h]
    rwa [this]
  · rintro ⟨hg, hi⟩
    exact ⟨hg, _, runUpdates_valid hu (den_valid hg), hi, fun u hu' => runUpdates_assigned hc hu',
      fun i h => (runUpdates_untouched h).symm⟩

end Reveaal
