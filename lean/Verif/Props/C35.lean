import Verif.Model.Reachability
import Verif.Spec.Pattern
import Verif.Lemmas.SysGood
import Verif.Examples

/-! # C35: partial locations match exactly by wildcard -/

namespace Reveaal
open ZoneLib
variable {F : Type} [ZoneLib F]

theorem matches_conj {p q l r : LocId} : LocId.Matches (.conjunction p q) (.conjunction l r) ↔
    p.Matches l ∧ q.Matches r :=
  ⟨fun h => by cases h with | conjunction h1 h2 => exact ⟨h1, h2⟩, fun h => .conjunction h.1 h.2⟩
theorem matches_comp {p q l r : LocId} : LocId.Matches (.composition p q) (.composition l r) ↔
    p.Matches l ∧ q.Matches r :=
  ⟨fun h => by cases h with | composition h1 h2 => exact ⟨h1, h2⟩, fun h => .composition h.1 h.2⟩
theorem matches_quot {p q l r : LocId} : LocId.Matches (.quotient p q) (.quotient l r) ↔
    p.Matches l ∧ q.Matches r :=
  ⟨fun h => by cases h with | quotient h1 h2 => exact ⟨h1, h2⟩, fun h => .quotient h.1 h.2⟩

theorem and_res {x y : Res Bool} {p q : Prop} (hx : ∃ b, x = .ok b ∧ (b = true ↔ p))
    (hy : ∃ b, y = .ok b ∧ (b = true ↔ q)) :
    ∃ b, (do if ← x then y else .ok false : Res Bool) = .ok b ∧ (b = true ↔ p ∧ q) := by
  obtain ⟨b, rfl, hb⟩ := hx
  obtain ⟨c, rfl, hc⟩ := hy
  cases b
  · exact ⟨false, rfl, by simp at hb; simp [hb]⟩
  · exact ⟨c, rfl, by simp at hb; simp [hb, hc]⟩

/-- For every accepted system, every location of it and every location a query can ask for: the
comparison does not crash, and says yes exactly when every named position has that name.
Missing from the full property: identifiers that do not come from a query, see `C35_violated_special`. -/
theorem C35_match_partial (s : Sys F) (hs : s.Accepted) (x e : LocTree F) (hx : s.IsLoc x)
    (he : s.IsPattern e) : ∃ b, x.comparePartial e = .ok b ∧ (b = true ↔ e.id.Matches x.id) := by
  induction hs generalizing x e with
  | comp hc ho h =>
    have wf := compileWith_wf hc ho h
    obtain ⟨p, hp, rfl⟩ := hx
    obtain ⟨n, inv, ty, hl⟩ := wf.leafs p hp
    rw [hl]
    rcases he with rfl | ⟨q, hq, rfl⟩
    · exact ⟨true, rfl, by simp [LocTree.anyLoc, LocTree.id, LocId.Matches.any]⟩
    · obtain ⟨m, inv', ty', hl'⟩ := wf.leafs q hq
      rw [hl']
      refine ⟨decide (n = m), rfl, ?_⟩
      simp only [LocTree.id, decide_eq_true_eq]
      exact ⟨fun h => by rw [h]; exact .simple _, fun h => by cases h; rfl⟩
  | composition _ _ h ihl ihr =>
    obtain ⟨_, rfl⟩ := Sys.newComposition_eq h
    obtain ⟨a, b, ha, hb, h1⟩ := hx
    obtain ⟨a', b', ha', hb', h2⟩ := he
    cases h1; cases h2
    simp only [LocTree.id, matches_comp]
    exact and_res (ihl a a' ha ha') (ihr b b' hb hb')
  | conjunction _ _ h ihl ihr =>
    obtain ⟨_, _, rfl⟩ := Sys.newConjunction_eq h
    obtain ⟨a, b, ha, hb, h1⟩ := hx
    obtain ⟨a', b', ha', hb', h2⟩ := he
    cases h1; cases h2
    simp only [LocTree.id, matches_conj]
    exact and_res (ihl a a' ha ha') (ihr b b' hb hb')
  | quotient _ _ h0 hn h ihl ihr =>
    obtain ⟨_, rfl⟩ := Sys.newQuotient_eq h
    obtain ⟨a', b', ha', hb', rfl⟩ := he
    rcases hx with ⟨a, b, ha, hb, rfl⟩ | rfl | rfl
    · simp only [LocTree.merge, LocTree.id, matches_quot]
      exact and_res (ihl a a' ha ha') (ihr b b' hb hb')
    · exact ⟨false, rfl, by
        simp only [Bool.false_eq_true, false_iff]; intro h; cases h⟩
    · exact ⟨false, rfl, by
        simp only [Bool.false_eq_true, false_iff]; intro h; cases h⟩

omit [ZoneLib F] in
/-- Outside the locations a query can ask for, the comparison is not exact: a special location of a
quotient does not match itself, and an unspecified position does not match a composed location. -/
theorem C35_violated_special : (LocTree.universalLoc : LocTree F).comparePartial .universalLoc = .ok false ∧
    LocId.Matches (LocTree.universalLoc : LocTree F).id (LocTree.universalLoc : LocTree F).id ∧
    (LocTree.merge LocTree.anyLoc LocTree.anyLoc : LocTree F).comparePartial .anyLoc = .ok false ∧
    LocId.Matches (LocTree.anyLoc : LocTree F).id (LocTree.merge LocTree.anyLoc LocTree.anyLoc : LocTree F).id :=
  ⟨rfl, .special _, rfl, .any _⟩

/-- Non-vacuity: in `A || B`, asking for "`B` in `M0`" and for "`B` in `M1`". -/
example : ∃ x e e', sysAB.IsLoc x ∧ sysAB.IsPattern e ∧ sysAB.IsPattern e' ∧
    x.comparePartial e = .ok true ∧ x.comparePartial e' = .ok false := by
  let l0 : LocTree Fed4 := .leaf (.simple "L0") none .initial
  let m0 : LocTree Fed4 := .leaf (.simple "M0") none .initial
  let m1 : LocTree Fed4 := .leaf (.simple "M1") none .normal
  obtain ⟨_, h⟩ := Sys.newComposition_eq sysAB_eq
  rw [h]
  have hl : sysA.IsLoc l0 := ⟨(.simple "L0", l0), List.mem_cons_self, rfl⟩
  have hm : sysB.IsLoc m0 := ⟨(.simple "M0", m0), List.mem_cons_self, rfl⟩
  have hm' : sysB.IsLoc m1 := ⟨(.simple "M1", m1), List.mem_cons_of_mem _ List.mem_cons_self, rfl⟩
  exact ⟨_, _, _, ⟨l0, m0, hl, hm, rfl⟩, ⟨.anyLoc, m0, .inl rfl, .inr hm, rfl⟩,
    ⟨.anyLoc, m1, .inl rfl, .inr hm', rfl⟩, rfl, rfl⟩

end Reveaal
