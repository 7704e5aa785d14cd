import Verif.Props.C79Det
import Verif.Props.C64Reach

/-!
# C64: the answer does not depend on the settings

Two runs of the same query, with clock reduction in one and without it in the other, and with different hash orders, are
answered alike.
-/

namespace Reveaal
open ZoneLib

section
variable {Z : Nat → Type} [∀ d, ZoneLib (Z d)]

/-- **C64** Whether clock reduction is on, and in which order hash tables are gone through, does not decide the answer to a
refinement query.

Missing from the full property: the conditions of `C64_exact_partial`, and answers that say that a system is not
deterministic or not consistent (for determinism see `C80_refused_partial` and `C64_settings_determinism_partial`). -/
theorem C64_settings_refinement_partial (hZ : ∀ d, dim (Z d) = d + 1) (X X' : QueryEnv Z) (hX : X.Fair) (hX' : X'.Fair)
    (load : String → Res Component) (hload : ∀ n c, load n = .ok c → c.decls.Numbered) (e e' : SysExpr) (l r : Recipe)
    (d : Nat) (q : Option Nat) (hr : getRecipes load [e, e'] 0 none = .ok ([l, r], d, q)) (hc : X.Comparable l r d q)
    (hc' : X'.Comparable l r d q) (hql : l.Lined) (hqr : r.Lined) (htl : ∀ c ∈ l.components, c.Tame (Z d))
    (htr : ∀ c ∈ r.components, c.Tame (Z d)) (s t : Sys (Z d)) (hs : l.Means s) (ht : r.Means t) (hw : s.WaitsAsLong t)
    (n n' : Nat) (o : Option (RefFailure (Z n))) (o' : Option (RefFailure (Z n')))
    (ho : ∀ side g, o ≠ some (.precheck side g)) (ho' : ∀ side g, o' ≠ some (.precheck side g))
    (h : X.run load (.refinement e e') = .ok (.refinement n o))
    (h' : X'.run load (.refinement e e') = .ok (.refinement n' o')) : o = none ↔ o' = none :=
  (C64_exact_partial hZ X hX load hload e e' l r d q hr hc hql hqr htl htr s t hs ht hw n o ho h).trans
    (C64_exact_partial hZ X' hX' load hload e e' l r d q hr hc' hql hqr htl htr s t hs ht hw n' o' ho' h').symm

/-- **C64** Nor the answer to a determinism query (with quotients in a line, as in `C64_exact_partial`). -/
theorem C64_settings_determinism_partial (hZ : ∀ d, dim (Z d) = d + 1) (X X' : QueryEnv Z) (hX : X.Fair) (hX' : X'.Fair)
    (load : String → Res Component) (hload : ∀ n c, load n = .ok c → c.decls.Numbered) (e : SysExpr) (he : e.LinedIn load)
    (d : Nat) (s : Sys (Z d)) (hA : X.AsksAbout load e d s) (hA' : X'.AsksAbout load e d s) (n n' : Nat)
    (o : Option (DetFailure (Z n))) (o' : Option (DetFailure (Z n')))
    (h : X.run load (.determinism e) = .ok (.determinism n o))
    (h' : X'.run load (.determinism e) = .ok (.determinism n' o')) : o = none ↔ o' = none := by
  have := (hA.exact_lined hZ hX hload he h).trans (hA'.exact_lined hZ hX' hload he h').symm
  cases o <;> cases o' <;> simp_all

/-- **C64** Nor whether a reachability query (without a start state) is answered with a path. -/
theorem C64_settings_reachability_partial (hZ : ∀ d, dim (Z d) = d + 1) (X X' : QueryEnv Z) (hX : X.Fair) (hX' : X'.Fair)
    (load : String → Res Component) (hload : ∀ n c, load n = .ok c → c.decls.Numbered) (e : SysExpr) (r : Recipe) (d : Nat)
    (q : Option Nat) (hr : getRecipes load [e] 0 none = .ok ([r], d, q)) (hc : r.Searchable d)
    (hpl : ∀ c ∈ r.components, c.Plain ∧ c.Deadlines (d + 1)) (goal : StateExpr) (hg : goal.Plain r)
    (hz : ∀ Y, Y = X ∨ Y = X' → ∀ z : Z d, (∀ v, v ∈ den z ↔ Valid (d + 1) v ∧ goal.SatClocks r v) →
      (Y.zoneBounds d z).Covers (d + 1) (den z))
    (s : Sys (Z d)) (hs : r.Means s) (n n' : Nat) (p : Option (List (Decision (Z n)))) (p' : Option (List (Decision (Z n'))))
    (h : X.run load (.reachability e none goal) = .ok (.reachability n p))
    (h' : X'.run load (.reachability e none goal) = .ok (.reachability n' p')) : p.isSome = p'.isSome :=
  Bool.eq_iff_iff.2 <|
    (C64_reachability_partial hZ X hX load hload e r d q hr hc hpl goal hg (hz X (.inl rfl)) s hs n p h).trans
    (C64_reachability_partial hZ X' hX' load hload e r d q hr hc hpl goal hg (hz X' (.inr rfl)) s hs n' p' h').symm

end

/-! ## Examples -/

/-- Non-vacuity: `A <= C` is answered with no, for systems with two clocks if clocks are reduced; hence also without. -/
example (o : Option (RefFailure (FedD 3))) (ho : ∀ side g, o ≠ some (.precheck side g))
    (h : (plainQueries false).run loadTwo (.refinement (.component "A" none) (.component "C" none)) =
      .ok (.refinement 3 o)) : o ≠ none := by
  obtain ⟨f, hf, hp⟩ := refinementAnswer_no (d := 2)
    (x := (plainQueries true).run loadTwo (.refinement (.component "A" none) (.component "C" none))) (by decide +kernel)
  have := C64_settings_refinement_partial dim_fedD (plainQueries true) (plainQueries false) (plainQueries_fair _)
    (plainQueries_fair _) loadTwo loadTwo_numbered _ _ _ _ 3 none
    exTwo_recipes.2 (exTwo_comparable true (.inr rfl)) (exTwo_comparable false (.inr rfl)) trivial trivial
    (fun c hc => by rw [List.mem_singleton.1 hc]; exact exTwo_tame.1)
    (fun c hc => by rw [List.mem_singleton.1 hc]; exact exTwo_tame.2.2) sysClient sysPicky exTwo_means.1 exTwo_means.2.2
    (sysServer_initial (k := 3) (.inr rfl)) 2 3 (some f) o hp ho hf h
  exact fun h => by cases this.2 h

/-- Without clock reduction the answer is also about a system with three clocks. -/
example : ∃ o, (plainQueries (Z := FedD) false).run loadTwo (.refinement (.component "A" none) (.component "C" none)) =
    .ok (.refinement 3 (some o)) ∧ ∀ side g, some o ≠ some (.precheck side g) :=
  refinementAnswer_no (by decide +kernel)

theorem exAlone_asks (b : Bool) : (plainQueries (Z := FedD) b).AsksAbout loadTwo (.component "A" none) 2 sysAlone := by
  refine ⟨.component exClient none, none, rfl, ?_, ?_, ⟨envK _, 0, 1, envK_perm, rfl⟩⟩
  · cases b
    · exact ⟨by decide, exOne_askable.comps, (fun h => by cases h), fun h => by cases h⟩
    · exact exOne_askable
  · intro c hc
    rw [List.mem_singleton.1 hc]
    exact tame80 (by decide) (by decide) (getOk_eq (by decide +kernel)) (by decide +kernel) (by decide +kernel)

/-- Non-vacuity: `determinism: A` is answered with yes, about one clock with clock reduction and about two without. -/
example : (none : Option (DetFailure (FedD 1))) = none ↔ (none : Option (DetFailure (FedD 2))) = none :=
  C64_settings_determinism_partial dim_fedD (plainQueries true) (plainQueries false) (plainQueries_fair _)
    (plainQueries_fair _) loadTwo loadTwo_numbered (.component "A" none) (SysExpr.NoQuotient.linedIn loadTwo_numbered trivial) 2 sysAlone (exAlone_asks true)
    (exAlone_asks false) 1 2 none none (determinism_answer (by decide +kernel)) (determinism_answer (by decide +kernel))

/-- Non-vacuity: `reachability: A -> A.L0 && A.u > 5` is answered with no, whether clocks are reduced or not. -/
example (p : Option (List (Decision (FedD 2))))
    (h : (reachQueries 5).run loadTwo (.reachability (.component "A" none) none (exGoal 5)) = .ok (.reachability 2 p)) :
    p = none := by
  obtain ⟨p', hp, h'⟩ := reachabilityAnswer_eq (d := 2) (b := false)
    (x := ({ reachQueries 5 with reduce := !(reachQueries 5).reduce } : QueryEnv FedD).run loadTwo
      (.reachability (.component "A" none) none (exGoal 5))) (by decide +kernel)
  have hf : QueryEnv.Fair { reachQueries 5 with reduce := !(reachQueries 5).reduce } := by
    obtain ⟨⟩ := reachQueries_fair 5
    constructor <;> assumption
  have := C64_settings_reachability_partial dim_fedD (reachQueries 5) _ (reachQueries_fair 5) hf loadTwo loadTwo_numbered
    (.component "A" none) _ 2 none rfl exOne_searchable
    (fun c hc => by rw [List.mem_singleton.1 hc]; exact ⟨Component.plain_of_plainB (by decide), exClient_deadlines⟩)
    (exGoal 5) (exGoal_boxed 5).plain (fun Y hY => by
      rcases hY with rfl | rfl
      · exact exGoal_bounds 5
      · exact exGoal_bounds 5) sysAlone ⟨envK _, 0, 1, envK_perm, rfl⟩ 2 2 p p' h hp
  rw [h'] at this
  cases p <;> simp_all

end Reveaal
