import Verif.Lemmas.Product
import Verif.Examples

/-!
# C09 Composition moves are synchronised products
-/

namespace Reveaal
open ZoneLib
variable {F : Type} [ZoneLib F]

/-- In a composition of two systems with different clocks, from the pair of locations `xl`, `xr` and
valuation `v` the action `a` leads to `(x', v')` exactly when `x'` is a pair of locations such that each
side that knows `a` performs it from its own location, ending there with its clocks set as by its own
move; each side that does not know `a` stays in its location (whose invariant holds) with its clocks
unchanged; and all other clocks are unchanged. -/
theorem C09_composition_moves {l r s : Sys F} (hl : l.Accepted) (hr : r.Accepted)
    (hs : Sys.newComposition l r = .ok s) (hdis : l.DisjointClocks r) {xl xr x : LocTree F}
    (hxl : l.IsLoc xl) (hxr : r.IsLoc xr) (hx : LocTree.compose xl xr .composition = .ok x)
    {v : Val} (hv : Valid (dim F) v) {a : String} (ha : s.hasAction a = true) (x' : LocTree F) (v' : Val) :
    s.ts.Act x v a x' v' ↔ ∃ xl' xr', LocTree.compose xl' xr' .composition = .ok x' ∧
      l.Participates xl v a xl' v' ∧ r.Participates xr v a xr' v' ∧ ∀ i ∉ s.clocks, v' i = v i :=
  (Sys.isProd_composition hs).act_iff hl.good hr.good hdis hxl hxr hx hv ha

/-- Invariants are conjoined: the composed location allows exactly the valuations both parts allow. -/
theorem C09_composition_invariant {xl xr x : LocTree F}
    (hx : LocTree.compose xl xr .composition = .ok x) (v : Val) :
    v ∈ InvSet x ↔ v ∈ InvSet xl ∧ v ∈ InvSet xr := mem_compose_inv hx

/-- The composition starts in the pair of the initial locations. -/
theorem C09_composition_initial {l r s : Sys F} (hs : Sys.newComposition l r = .ok s) (x : LocTree F)
    (hx : s.ts.initialLoc = .ok (some x)) : ∃ a b, l.ts.initialLoc = .ok (some a) ∧
      r.ts.initialLoc = .ok (some b) ∧ LocTree.compose a b .composition = .ok x :=
  (Sys.isProd_composition hs).init x hx

omit [ZoneLib F] in
/-- The action set of a composition is the union of the action sets of its sides. -/
theorem C09_composition_actions {l r s : Sys F} (hs : Sys.newComposition l r = .ok s) (a : String) :
    s.hasAction a = true ↔ l.hasAction a = true ∨ r.hasAction a = true := by
  obtain ⟨_, rfl⟩ := Sys.newComposition_eq hs
  rw [Sys.hasAction_iff, Sys.hasAction_iff, Sys.hasAction_iff, Sys.inputs_composition,
    Sys.outputs_composition, mem_mkSet, mem_setUnion]
  simp only [List.mem_append, List.mem_filter, Bool.not_eq_true', List.contains_eq_mem,
    decide_eq_false_iff_not]
  tauto

/-- The hypotheses are met by `A || B`, and the composition can do something: from the pair of initial
locations it can perform `go`, which both sides know. -/
example : sysA.Accepted ∧ sysB.Accepted ∧ Sys.newComposition sysA sysB = .ok sysAB ∧
    sysA.DisjointClocks sysB ∧ sysAB.hasAction "go" = true ∧
    ∃ x, sysAB.initialLoc = .ok (some x) ∧ sysAB.IsLoc x ∧ ∃ v x' v', sysAB.ts.Act x v "go" x' v' := by
  refine ⟨sysA_accepted, sysB_accepted, sysAB_eq, sysAB_disjoint, by decide +kernel, ?_⟩
  obtain ⟨o, ho, hloc⟩ := sysAB_accepted.good.initial
  have hsome : (getOk sysAB.initialLoc (by decide +kernel)).isSome = true := by decide +kernel
  rw [getOk_eq (r := sysAB.initialLoc) (by decide +kernel)] at ho
  cases ho
  obtain ⟨x, hx⟩ := Option.isSome_iff_exists.1 hsome
  refine ⟨x, ?_, hloc x hx, ?_⟩
  · rw [← hx]; exact getOk_eq _
  have hgo : ((sysAB.initialLoc >>= fun o => match o with
      | some x => sysAB.next x "go"
      | none => .ok []).toOption.getD []).any (fun t => !(isEmpty t.allowed)) = true := by
    decide +kernel
  have hi : sysAB.initialLoc = .ok (some x) := by rw [← hx]; exact getOk_eq _
  rw [hi] at hgo
  simp only [ok_bind] at hgo
  obtain ⟨ts, hts, g⟩ := sysAB_accepted.good.next x "go" (hloc x hx) (by decide +kernel)
  rw [hts] at hgo
  simp only [Except.toOption, Option.getD_some, List.any_eq_true, Bool.not_eq_true'] at hgo
  obtain ⟨t, ht, hne⟩ := hgo
  obtain ⟨v, hv⟩ := isEmpty_false_iff.1 hne
  have hcf : ∀ t ∈ ts, NoConflict t.updates := by
    have : (((sysAB.initialLoc >>= fun o => match o with
      | some x => sysAB.next x "go"
      | none => .ok []).toOption.getD []).all fun t => decide (NoConflict t.updates)) = true := by
      decide +kernel
    rw [hi] at this
    simp only [ok_bind, hts, Except.toOption, Option.getD_some, List.all_eq_true,
      decide_eq_true_eq] at this
    exact this
  exact ⟨v, _, _, by decide +kernel, ts, hts, t, ht, (mem_allowed (g t ht).2.upd (hcf t ht)).1 hv, rfl, rfl⟩

end Reveaal
