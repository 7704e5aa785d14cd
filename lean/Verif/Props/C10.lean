import Verif.Lemmas.Product
import Verif.Examples

/-!
# C10 Conjunction moves are joint moves
-/

namespace Reveaal
open ZoneLib
variable {F : Type} [ZoneLib F]

/-- In a conjunction of two systems with different clocks, from the pair of locations `xl`, `xr` and
valuation `v` the action `a` leads to `(x', v')` exactly when both sides can perform `a` from their own
location, `x'` is the pair of their targets, and the clocks of each side are set as by its own move. -/
theorem C10_conjunction_moves {l r s : Sys F} (hl : l.Accepted) (hr : r.Accepted)
    (hs : Sys.newConjunctionUnchecked l r = .ok s) (hdis : l.DisjointClocks r) {xl xr x : LocTree F}
    (hxl : l.IsLoc xl) (hxr : r.IsLoc xr) (hx : LocTree.compose xl xr .conjunction = .ok x)
    {v : Val} (hv : Valid (dim F) v) {a : String} (ha : s.hasAction a = true) (x' : LocTree F) (v' : Val) :
    s.ts.Act x v a x' v' ↔ ∃ xl' xr' v1 v2, LocTree.compose xl' xr' .conjunction = .ok x' ∧
      l.ts.Act xl v a xl' v1 ∧ r.ts.Act xr v a xr' v2 ∧ (∀ i ∈ l.clocks, v' i = v1 i) ∧
      (∀ i ∈ r.clocks, v' i = v2 i) ∧ ∀ i ∉ s.clocks, v' i = v i := by
  have hacts : l.hasAction a = true ∧ r.hasAction a = true := by
    obtain ⟨_, _, rfl⟩ := Sys.newConjunction_eq hs
    rw [Sys.hasAction_iff, Sys.inputs_conjunction, Sys.outputs_conjunction] at ha
    simp only [mem_setInter] at ha
    rw [Sys.hasAction_iff, Sys.hasAction_iff]; tauto
  rw [(Sys.isProd_conjunction hs).act_iff hl.good hr.good hdis hxl hxr hx hv ha]
  constructor
  · rintro ⟨xl', xr', h1, h2, h3, h4⟩
    obtain ⟨v1, a1, b1⟩ := h2.1 hacts.1
    obtain ⟨v2, a2, b2⟩ := h3.1 hacts.2
    exact ⟨xl', xr', v1, v2, h1, a1, a2, b1, b2, h4⟩
  · rintro ⟨xl', xr', v1, v2, h1, a1, a2, b1, b2, h4⟩
    exact ⟨xl', xr', h1, ⟨fun _ => ⟨v1, a1, b1⟩, fun h => by simp [hacts.1] at h⟩,
      ⟨fun _ => ⟨v2, a2, b2⟩, fun h => by simp [hacts.2] at h⟩, h4⟩

/-- A conjunction can do an action exactly when both sides can. -/
theorem C10_conjunction_enabled {l r s : Sys F} (hl : l.Accepted) (hr : r.Accepted)
    (hs : Sys.newConjunctionUnchecked l r = .ok s) (hdis : l.DisjointClocks r) {xl xr x : LocTree F}
    (hxl : l.IsLoc xl) (hxr : r.IsLoc xr) (hx : LocTree.compose xl xr .conjunction = .ok x)
    {v : Val} (hv : Valid (dim F) v) {a : String} (ha : s.hasAction a = true) :
    (∃ x' v', s.ts.Act x v a x' v') ↔
      (∃ xl' v1, l.ts.Act xl v a xl' v1) ∧ ∃ xr' v2, r.ts.Act xr v a xr' v2 := by
  constructor
  · rintro ⟨x', v', h⟩
    obtain ⟨xl', xr', v1, v2, _, a1, a2, _⟩ :=
      (C10_conjunction_moves hl hr hs hdis hxl hxr hx hv ha x' v').1 h
    exact ⟨⟨xl', v1, a1⟩, xr', v2, a2⟩
  · rintro ⟨⟨xl', v1, a1⟩, xr', v2, a2⟩
    obtain ⟨i, x', hx', _⟩ := compose_ok (a := xl') (b := xr') (c := .conjunction) (.inl rfl)
    refine ⟨x', mix l.clocks v1 (mix r.clocks v2 v), ?_⟩
    refine (C10_conjunction_moves hl hr hs hdis hxl hxr hx hv ha x' _).2
      ⟨xl', xr', v1, v2, hx', a1, a2, fun i hi => mix_in hi, fun i hi => ?_, fun i hi => ?_⟩
    · rw [mix_out fun h => hdis i h hi, mix_in hi]
    · have hc := (Sys.isProd_conjunction hs).clocks i
      rw [hc] at hi
      rw [mix_out fun h => hi (.inl h), mix_out fun h => hi (.inr h)]

/-- Invariants are conjoined. -/
theorem C10_conjunction_invariant {xl xr x : LocTree F}
    (hx : LocTree.compose xl xr .conjunction = .ok x) (v : Val) :
    v ∈ InvSet x ↔ v ∈ InvSet xl ∧ v ∈ InvSet xr := mem_compose_inv hx

/-- The hypotheses are met by the conjunction of the two machines `A` and `C`, which both know `go`
and `out`. -/
example : sysA.Accepted ∧ sysC.Accepted ∧ Sys.newConjunctionUnchecked sysA sysC = .ok sysAC ∧
    sysA.DisjointClocks sysC ∧ sysAC.hasAction "go" = true ∧ sysAC.hasAction "out" = true ∧
    ∃ xl xr x, sysA.IsLoc xl ∧ sysC.IsLoc xr ∧ LocTree.compose xl xr .conjunction = .ok x := by
  refine ⟨sysA_accepted, sysC_accepted, sysAC_eq, sysAC_disjoint, by decide +kernel,
    by decide +kernel, ?_⟩
  have h : ∀ s : Sys Fed4, s.Accepted → (s.initialLoc.toOption.getD none).isSome = true →
      ∃ x, s.IsLoc x := by
    intro s hs h
    obtain ⟨o, ho, hl⟩ := hs.good.initial
    rw [ho] at h
    obtain ⟨x, hx⟩ := Option.isSome_iff_exists.1 h
    exact ⟨x, hl x hx⟩
  obtain ⟨xl, hxl⟩ := h sysA sysA_accepted (by decide +kernel)
  obtain ⟨xr, hxr⟩ := h sysC sysC_accepted (by decide +kernel)
  exact ⟨xl, xr, _, hxl, hxr, rfl⟩

end Reveaal
