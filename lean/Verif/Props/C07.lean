import Verif.Props.C06
import Verif.Model.Decision

/-! # C07: simulation offers exactly the possible decisions and never crashes computing them -/

namespace Reveaal
open ZoneLib Decision
variable {F : Type} [ZoneLib F]

/-- The decision the simulation must offer for a transition of a state: the valuations of the state
that can take it, and the symbolic successor of these. -/
def IsDecisionFor (s : State F) (a : String) (t : Transition F) (d : Decision F) : Prop :=
  d.action = a ∧ d.transition = some t ∧ d.state.loc = s.loc ∧
    den d.state.zone = {v | v ∈ den s.zone ∧ CanTake t v} ∧
    d.nextState.loc = t.target ∧ den d.nextState.zone = SuccSet t (den d.state.zone) ∧
    ∃ w, w ∈ den d.nextState.zone

open Classical in
/-- The transitions some valuation of the state can take. -/
noncomputable def possible (s : State F) (trans : List (Transition F)) : List (Transition F) :=
  trans.filter fun t => decide (∃ v, v ∈ den s.zone ∧ CanTake t v)

theorem canTake_succ {t : Transition F} {z : Set Val} {v : Val} (hv : v ∈ z) (h : CanTake t v) :
    runUpdates t.updates v ∈ SuccSet t z :=
  ⟨v, hv, h.1, 0, le_rfl, (delay_zero _ _).symm, h.2⟩

theorem fromStateTransition_spec {s : State F} {t : Transition F} {a : String}
    (hu : UpdatesOk t.updates (dim F)) (hc : NoConflict t.updates) :
    ((∃ v, v ∈ den s.zone ∧ CanTake t v) → ∃ d, fromStateTransition s t a = .ok (some d) ∧
      IsDecisionFor s a t d) ∧
    ((¬ ∃ v, v ∈ den s.zone ∧ CanTake t v) → fromStateTransition s t a = .ok none) := by
  have hden : den (inter s.zone t.allowed) = {v | v ∈ den s.zone ∧ CanTake t v} := by
    ext v; rw [den_inter]; exact and_congr_right fun _ => mem_allowed hu hc
  unfold fromStateTransition
  simp only
  constructor
  · rintro ⟨v, hv, hct⟩
    have hne : isEmpty (inter s.zone t.allowed) = false :=
      isEmpty_false_iff.2 ⟨v, by rw [hden]; exact ⟨hv, hct⟩⟩
    simp only [hne, Bool.not_false, if_true]
    obtain ⟨h1, h2⟩ := C05_use_transition_alt t ⟨s.loc, inter s.zone t.allowed⟩ hu
    cases h : t.useAlt ⟨s.loc, inter s.zone t.allowed⟩ with
    | none =>
      exfalso
      have := h2.1 h
      have hm := canTake_succ (z := den (inter s.zone t.allowed)) (by rw [hden]; exact ⟨hv, hct⟩) hct
      rw [this] at hm; exact hm
    | some s' =>
      obtain ⟨h3, h4, h5⟩ := h1 s' h
      exact ⟨_, rfl, rfl, rfl, rfl, hden, h3, h4, h5⟩
  · intro h
    have : isEmpty (inter s.zone t.allowed) = true := by
      rw [ZoneLib.isEmpty_iff, hden]
      exact Set.eq_empty_iff_forall_notMem.2 fun v hv => h ⟨v, hv⟩
    simp [this]

theorem forall2_append {α β : Type*} {R : α → β → Prop} {a b : List α} {c d : List β}
    (h : List.Forall₂ R a c) (h' : List.Forall₂ R b d) : List.Forall₂ R (a ++ b) (c ++ d) := by
  induction h with
  | nil => exact h'
  | cons h _ ih => exact .cons h ih

theorem fromTransitions_spec {s : State F} {a : String} {trans : List (Transition F)}
    (h : ∀ t ∈ trans, UpdatesOk t.updates (dim F) ∧ NoConflict t.updates) :
    ∃ ds, fromTransitions s a trans = .ok ds ∧
      List.Forall₂ (fun t d => IsDecisionFor s a t d) (possible s trans) ds := by
  induction trans with
  | nil => exact ⟨[], rfl, by simp [possible]⟩
  | cons t trans ih =>
    obtain ⟨ds, hds, hf⟩ := ih fun t' ht' => h t' (by simp [ht'])
    obtain ⟨hu, hc⟩ := h t (by simp)
    obtain ⟨h1, h2⟩ := fromStateTransition_spec (s := s) (a := a) hu hc
    by_cases hp : ∃ v, v ∈ den s.zone ∧ CanTake t v
    · obtain ⟨d, hd, hspec⟩ := h1 hp
      refine ⟨d :: ds, ?_, ?_⟩
      · simp only [fromTransitions, hd, hds]; rfl
      · have : possible s (t :: trans) = t :: possible s trans := by simp [possible, hp]
        rw [this]; exact .cons hspec hf
    · refine ⟨ds, ?_, ?_⟩
      · simp only [fromTransitions, h2 hp, hds]; rfl
      · have : possible s (t :: trans) = possible s trans := by simp [possible, hp]
        rw [this]; exact hf

/-- Computing the decisions of a state does not crash, and offers, action by action and transition by
transition, one decision for each transition that some valuation of the state can take, with exactly
the valuations that can take it and the non-empty successor.
Missing from the full property: transitions assigning two different values to one clock. -/
theorem C07_decisions_partial (ts : TS F) (s : State F) (acts : List String)
    (trans : String → List (Transition F))
    (hn : ∀ a ∈ acts, ts.next s.loc a = .ok (trans a))
    (hok : ∀ a ∈ acts, ∀ t ∈ trans a, UpdatesOk t.updates (dim F) ∧ NoConflict t.updates) :
    ∃ ds, Decision.fromState ts acts s = .ok ds ∧
      List.Forall₂ (fun p d => IsDecisionFor s p.1 p.2 d)
        (acts.flatMap fun a => (possible s (trans a)).map fun t => (a, t)) ds := by
  induction acts with
  | nil => exact ⟨[], rfl, .nil⟩
  | cons a acts ih =>
    obtain ⟨ds, hds, hf⟩ := ih (fun b hb => hn b (by simp [hb])) fun b hb => hok b (by simp [hb])
    obtain ⟨ds1, hds1, hf1⟩ := fromTransitions_spec (s := s) (a := a) (hok a (by simp))
    refine ⟨ds1 ++ ds, ?_, ?_⟩
    · simp only [Decision.fromState, hn a (by simp), ok_bind, hds1, hds]
    · rw [List.flatMap_cons]
      refine forall2_append ?_ hf
      rw [List.forall₂_map_left_iff]; exact hf1

/-- Computing the decisions never crashes, even with conflicting updates. -/
theorem C07_no_crash (ts : TS F) (s : State F) (acts : List String)
    (trans : String → List (Transition F))
    (hn : ∀ a ∈ acts, ts.next s.loc a = .ok (trans a))
    (hok : ∀ a ∈ acts, ∀ t ∈ trans a, UpdatesOk t.updates (dim F)) :
    ∃ ds, Decision.fromState ts acts s = .ok ds := by
  have one : ∀ t : Transition F, UpdatesOk t.updates (dim F) → ∀ a,
      ∃ d, fromStateTransition s t a = .ok d := by
    intro t hu a
    by_cases hc : NoConflict t.updates
    · obtain ⟨h1, h2⟩ := fromStateTransition_spec (s := s) (a := a) hu hc
      by_cases hp : ∃ v, v ∈ den s.zone ∧ CanTake t v
      · obtain ⟨d, hd, _⟩ := h1 hp; exact ⟨_, hd⟩
      · exact ⟨_, h2 hp⟩
    · refine ⟨none, ?_⟩
      have : isEmpty (inter s.zone t.allowed) = true := by
        rw [ZoneLib.isEmpty_iff, den_inter, C06_conflict_empty t hu hc, Set.inter_empty]
      simp [fromStateTransition, this]
  have many : ∀ a, ∀ l : List (Transition F), (∀ t ∈ l, UpdatesOk t.updates (dim F)) →
      ∃ ds, fromTransitions s a l = .ok ds := by
    intro a l
    induction l with
    | nil => intro _; exact ⟨[], rfl⟩
    | cons t l ih =>
      intro h
      obtain ⟨ds, hds⟩ := ih fun t' ht' => h t' (by simp [ht'])
      obtain ⟨d, hd⟩ := one t (h t (by simp)) a
      exact ⟨d.toList ++ ds, by simp only [fromTransitions, hd, hds]; rfl⟩
  induction acts with
  | nil => exact ⟨[], rfl⟩
  | cons a acts ih =>
    obtain ⟨ds, hds⟩ := ih (fun b hb => hn b (by simp [hb])) fun b hb => hok b (by simp [hb])
    obtain ⟨ds1, hds1⟩ := many a _ (hok a (by simp))
    exact ⟨ds1 ++ ds, by simp only [Decision.fromState, hn a (by simp), ok_bind, hds1, hds]⟩

/-- Choosing an offered decision leads to the announced destination, if at most one transition of the
action can be taken by each valuation and the targets' invariants only bound time from above.
Missing from the full property: systems where these fail, see the two violation theorems. -/
theorem C07_resolve_partial (ts : TS F) (s : State F) (a : String) (trans : List (Transition F))
    (pre post : List (Transition F)) (t : Transition F) (d : Decision F)
    (hn : ts.next s.loc a = .ok trans) (htr : trans = pre ++ t :: post)
    (hok : ∀ t ∈ trans, UpdatesOk t.updates (dim F) ∧ NoConflict t.updates)
    (hpc : ∀ t ∈ trans, PastClosed t.target)
    (hdet : ∀ v ∈ den s.zone, CanTake t v → ∀ t' ∈ pre ++ post, ¬ CanTake t' v)
    (hd : fromStateTransition s t a = .ok (some d)) :
    d.resolveState ts = .ok d.nextState := by
  have htm : t ∈ trans := by rw [htr]; simp
  obtain ⟨hu, hc⟩ := hok t htm
  have hp : ∃ v, v ∈ den s.zone ∧ CanTake t v := by
    by_contra hp
    rw [(fromStateTransition_spec hu hc).2 hp] at hd; cases hd
  -- the decision's state and action
  have hds : d.state = ⟨s.loc, inter s.zone t.allowed⟩ ∧ d.action = a ∧
      t.useAlt d.state = some d.nextState := by
    unfold fromStateTransition at hd
    simp only at hd
    split at hd
    · split at hd
      · rename_i h; cases hd; exact ⟨rfl, rfl, h⟩
      · cases hd
    · cases hd
  obtain ⟨h1, h2, h3⟩ := hds
  have none_of : ∀ t' ∈ pre ++ post, t'.useAlt d.state = none := by
    intro t' ht'
    have ht'm : t' ∈ trans := by
      rw [htr]; rcases List.mem_append.1 ht' with h | h <;> simp [h]
    obtain ⟨hu', hc'⟩ := hok t' ht'm
    rw [(C05_use_transition_alt t' d.state hu').2]
    apply Set.eq_empty_iff_forall_notMem.2
    rintro w ⟨v, hv, hg, δ, hδ, rfl, hinv⟩
    rw [h1, den_inter] at hv
    refine hdet v hv.1 ((mem_allowed hu hc).1 hv.2) t' ht' ⟨hg, ?_⟩
    exact hpc t' ht'm _ δ (runUpdates_valid hu' (den_valid hg)) hδ hinv
  have hloc : d.state.loc = s.loc := by rw [h1]
  have hnil : ∀ l : List (Transition F), (∀ t' ∈ l, t'.useAlt d.state = none) →
      l.filterMap (fun t => t.useAlt d.state) = [] := by
    intro l hl; rw [List.filterMap_eq_nil_iff]; exact hl
  unfold Decision.resolveState
  rw [hloc, h2, hn, htr]
  simp only [ok_bind, List.filterMap_append, List.filterMap_cons, h3,
    hnil pre fun t' h => none_of t' (by simp [h]), hnil post fun t' h => none_of t' (by simp [h])]
  rfl

/-- The full property is false of nondeterministic systems: both copies of a transition are offered,
choosing either crashes. -/
theorem C07_violated_ambiguous :
    let l : LocTree F := .leaf (.simple "L") none .initial
    let t : Transition F := ⟨.simple "e", univ, l, []⟩
    let ts : TS F := ⟨["a"], [], .ok (some l), .ok (some ⟨l, univ⟩),
      fun _ _ => .ok [t, t], fun _ => .ok Bounds.new, .ok [l]⟩
    ∃ ds, Decision.fromState ts ["a"] ⟨l, univ⟩ = .ok ds ∧ ds.length = 2 ∧
      ∀ d ∈ ds, d.resolveState ts =
        .error (.panic "Ambiguous decision leads to multiple new states") := by
  intro l t ts
  have hu : UpdatesOk t.updates (dim F) := by intro u hu; cases hu
  have hc : NoConflict t.updates := by intro u hu; cases hu
  obtain ⟨v0, hv0⟩ : ∃ v, v ∈ den (univ : F) :=
    isEmpty_false_iff.1 (by simpa using univ_nonempty)
  have hct : CanTake t v0 := ⟨hv0, by intro i hi; simp [t, l, LocTree.inv] at hi⟩
  obtain ⟨d, hd, hs⟩ := (fromStateTransition_spec (s := ⟨l, univ⟩) (a := "a") hu hc).1 ⟨v0, hv0, hct⟩
  refine ⟨[d, d], ?_, rfl, ?_⟩
  · simp only [Decision.fromState, ts, fromTransitions, ok_bind, hd]; rfl
  · simp only [List.mem_cons, List.not_mem_nil, or_false, or_self, forall_eq]
    obtain ⟨s', hs'⟩ : ∃ s', t.useAlt d.state = some s' := by
      cases h : t.useAlt d.state with
      | some s' => exact ⟨s', rfl⟩
      | none =>
        rw [(C05_use_transition_alt t d.state hu).2] at h
        obtain ⟨_, _, _, _, _, h2, w, hw⟩ := hs
        rw [h2, h] at hw; exact hw.elim
    unfold Decision.resolveState
    simp only [ts, ok_bind, List.filterMap_cons, hs', List.filterMap_nil]

/-- The full property is also false if a clock is assigned two different values: no decision is
offered although every valuation can take the transition. -/
theorem C07_violated_conflicting_updates (hdim : 1 < dim F) :
    let l : LocTree F := .leaf (.simple "L") none .initial
    let t : Transition F := ⟨.simple "e", univ, l, [⟨1, 0⟩, ⟨1, 1⟩]⟩
    let ts : TS F := ⟨["a"], [], .ok (some l), .ok (some ⟨l, univ⟩),
      fun _ _ => .ok [t], fun _ => .ok Bounds.new, .ok [l]⟩
    (∀ v ∈ den (univ : F), CanTake t v) ∧ Decision.fromState ts ["a"] ⟨l, univ⟩ = .ok [] := by
  intro l t ts
  refine ⟨fun v hv => ⟨hv, by intro i hi; simp [t, l, LocTree.inv] at hi⟩, ?_⟩
  have hu : UpdatesOk t.updates (dim F) := by
    intro u hu; simp [t] at hu; rcases hu with rfl | rfl <;> exact ⟨by decide, hdim, by decide⟩
  have he : isEmpty (inter univ t.allowed) = true := by
    rw [ZoneLib.isEmpty_iff, den_inter, C06_conflict_empty t hu
      (show ¬ NoConflict [⟨1, 0⟩, ⟨1, 1⟩] by decide), Set.inter_empty]
  have : fromStateTransition ⟨l, univ⟩ t "a" = .ok none := by
    simp [fromStateTransition, he]
  simp only [Decision.fromState, ts, fromTransitions, ok_bind, this]; rfl

/-- Non-vacuity: a deterministic state with two complementary transitions (`x <= 3` with a reset, `x > 3`
with an invariant on the target) satisfies the hypotheses of both theorems, and both transitions are
possible. -/
example : let _ := ZoneImpl.lib 1
    let l : LocTree (ZoneImpl.Fed 2) := .leaf (.simple "L") none .initial
    let m : LocTree (ZoneImpl.Fed 2) :=
      .leaf (.simple "M") (some (constrain univ 1 0 (.LE 7))) .normal
    let t : Transition (ZoneImpl.Fed 2) := ⟨.simple "e", constrain univ 1 0 (.LE 3), l, [⟨1, 0⟩]⟩
    let t' : Transition (ZoneImpl.Fed 2) := ⟨.simple "f", constrain univ 0 1 (.LS (-3)), m, []⟩
    (∀ x ∈ [t, t'], UpdatesOk x.updates (dim (ZoneImpl.Fed 2)) ∧ NoConflict x.updates) ∧
    (∀ x ∈ [t, t'], PastClosed x.target) ∧
    (∀ v ∈ den (univ : ZoneImpl.Fed 2), CanTake t v → ∀ x ∈ [] ++ [t'], ¬ CanTake x v) ∧
    isEmpty t.allowed = false ∧ isEmpty t'.allowed = false := by
  intro _ l m t t'
  refine ⟨by simp only [List.forall_mem_cons]; decide, ?_, ?_, by decide, by decide⟩
  · simp only [List.forall_mem_cons, List.not_mem_nil, false_imp_iff, implies_true, and_true]
    constructor
    · intro v d _ _ _ i hi; simp [t, l, LocTree.inv] at hi
    · intro v d hv hd h i hi
      have := h i hi
      simp only [t', m, LocTree.inv, Option.some.injEq] at hi
      subst hi
      rw [den_constrain _ _ _ _ (by decide) (by decide), den_univ] at this ⊢
      refine ⟨hv, ?_⟩
      have h2 := this.2
      have hd2 : (1 : Nat) < dim (ZoneImpl.Fed 2) := by decide
      simp only [Ineq.Sat, delay, hd2, Nat.lt_irrefl, false_and, if_false, and_true, Nat.zero_lt_one,
        if_true] at h2 ⊢
      linarith
  · intro v hv h x hx h'
    simp only [List.nil_append, List.mem_singleton] at hx
    subst hx
    have h1 := h.1
    have h2 := h'.1
    simp only [t, t'] at h1 h2
    rw [den_constrain _ _ _ _ (by decide) (by decide)] at h1 h2
    have h1 := h1.2
    have h2 := h2.2
    simp only [Ineq.Sat] at h1 h2
    push_cast at h1 h2
    linarith

end Reveaal
