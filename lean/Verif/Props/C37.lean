import Verif.Lemmas.BoundsQuotient
import Verif.Props.C16

/-! # C37: the extrapolation constants -/

namespace Reveaal
open ZoneLib Arith
variable {F : Type} [ZoneLib F]

/-- The bound that a component reports for a clock is at least every literal the clock is compared with
directly, in any guard or invariant, on either side of the comparison.
Missing from the full property: comparisons in which the constant is not a literal next to a bare clock
(`C37_violated_sum`, `C37_violated_difference`, `C37_violated_named`). -/
theorem C37_bounds_partial (c : Component) (g : BoolE) (hg : c.HasExpr g) (l r : Arith)
    (hm : (l, r) ∈ g.comparisons) (n : String) (i : Nat) (k : Int) (h : ComparesClock c.decls l r n i k) :
    ∃ m, c.maxBounds i = some m ∧ k ≤ m := by
  have hd : (n, i) ∈ c.decls.clocks := by rcases h with h | h <;> [exact h.1.1; exact h.2.1]
  obtain ⟨m, h1, h2⟩ := maxBounds_ge hd
  refine ⟨m, h1, ?_⟩
  rw [← getConstant_compares h]
  exact (getMaxConstant_ge hm i n).trans ((clockBound_ge hg n i).trans h2)

/-- Systems composed of components that only compare clocks with literals. -/
inductive Sys.OfPlain : Sys F → Prop
  | comp {order : List (LocId × LocTree F) → List (LocId × LocTree F)} {c : Component}
      {ins outs : List String} {id : Nat} {x : CompComp F} (hc : c.Ok (dim F)) (hp : c.Plain)
      (ho : ∀ l, (order l).Perm l) (h : CompComp.compileWith order c ins outs id = .ok x) : OfPlain (.comp x)
  | composition {l r s : Sys F} (hl : OfPlain l) (hr : OfPlain r) (h : Sys.newComposition l r = .ok s) :
      OfPlain s
  | conjunction {l r s : Sys F} (hl : OfPlain l) (hr : OfPlain r)
      (h : Sys.newConjunctionUnchecked l r = .ok s) : OfPlain s
  | quotient {t s x : Sys F} {clock : Nat} (ht : OfPlain t) (hs : OfPlain s) (h0 : 0 < clock)
      (hn : clock < dim F) (h : Sys.newQuotientUnchecked t s clock = .ok x) : OfPlain x

theorem Sys.OfPlain.accepted {s : Sys F} (h : s.OfPlain) : s.Accepted := by
  induction h with
  | comp hc _ ho h => exact .comp hc ho h
  | composition _ _ h ihl ihr => exact .composition ihl ihr h
  | conjunction _ _ h ihl ihr => exact .conjunction ihl ihr h
  | quotient _ _ h0 hn h iht ihs => exact .quotient iht ihs h0 hn h

theorem Sys.OfPlain.covers {s : Sys F} (h : s.OfPlain) : s.BoundsCover := by
  induction h with
  | comp hc hp ho h => exact Sys.boundsCover_comp hc ho h hp
  | composition hl hr h ihl ihr => exact Sys.boundsCover_composition hl.accepted.good hr.accepted.good ihl ihr h
  | conjunction hl hr h ihl ihr => exact Sys.boundsCover_conjunction hl.accepted.good hr.accepted.good ihl ihr h
  | quotient ht hs h0 hn h iht ihs =>
    exact Sys.boundsCover_quotient ht.accepted.good hs.accepted.good iht ihs h0 hn h

/-- What the bounds are for: in compositions, conjunctions and quotients of components that compare clocks
with literals only, two valuations that the bounds of a location do not distinguish let the same time pass and
have the same moves, to locations and valuations that again are not distinguished. -/
theorem C37_harmless_partial (s : Sys F) (h : s.OfPlain) (l : LocTree F) (hl : s.IsLoc l) :
    ∃ b, s.ts.localBounds l = .ok b ∧ ∀ v w, Valid (dim F) v → Valid (dim F) w → b.Equiv v w →
      (∀ d, TS.CanDelay l v d ↔ TS.CanDelay l w d) ∧
      ∀ a l' v', s.ts.Act l v a l' v' → ∃ b' w', s.ts.localBounds l' = .ok b' ∧ s.ts.Act l w a l' w' ∧
        b'.Equiv v' w' := by
  have hs := h.accepted.good
  obtain ⟨b, hb⟩ := hs.bounds l hl
  refine ⟨b, hb, fun v w hv hw he => ⟨fun d => ⟨?_, ?_⟩, fun a l' v' ha => ?_⟩⟩
  · exact h.covers.canDelay hl hb hv hw he
  · exact h.covers.canDelay hl hb hw hv he.symm
  · exact (h.covers.act hs hl hb hv hw he ha).2

/-! ## Concrete cases -/

/-- The machine `A` compares its clock with 2 and 5, and reports 5. -/
example : ∃ m, exA.maxBounds 1 = some m ∧ 5 ≤ m :=
  C37_bounds_partial exA (.le (.var "x") (.int 5)) (.inr ⟨_, List.mem_cons_of_mem _ (List.mem_singleton.2 rfl), rfl⟩) (.var "x") (.int 5)
    (by simp [BoolE.comparisons]) "x" 1 5 (.inl ⟨⟨by simp [exA], .inr ⟨rfl, rfl⟩⟩, rfl⟩)

example : exA.maxBounds 1 = some 5 := by decide

theorem exA_plain : exA.Plain := by
  refine ⟨?_, by decide⟩
  rintro g (⟨e, he, hg⟩ | ⟨l, hl, hg⟩)
  · simp only [exA, List.mem_cons, List.not_mem_nil, or_false] at he
    rcases he with rfl | rfl <;> cases hg
    intro p hp
    simp only [BoolE.comparisons, List.mem_singleton] at hp; subst hp
    exact ⟨"x", 1, 2, .inl ⟨⟨by simp [exA], .inr ⟨rfl, rfl⟩⟩, rfl⟩⟩
  · simp only [exA, List.mem_cons, List.not_mem_nil, or_false] at hl
    rcases hl with rfl | rfl <;> cases hg
    intro p hp
    simp only [BoolE.comparisons, List.mem_singleton] at hp; subst hp
    exact ⟨"x", 1, 5, .inl ⟨⟨by simp [exA], .inr ⟨rfl, rfl⟩⟩, rfl⟩⟩

theorem sysA_ofPlain : sysA.OfPlain := .comp exA_ok exA_plain (fun _ => .refl _) (getOk_eq _)

theorem exB_plain : exB.Plain := by
  refine ⟨?_, by decide⟩
  rintro g (⟨e, he, hg⟩ | ⟨l, hl, hg⟩)
  · simp only [exB, List.mem_cons, List.not_mem_nil, or_false] at he
    rcases he with rfl | rfl <;> cases hg
    intro p hp
    simp only [BoolE.comparisons, List.mem_singleton] at hp; subst hp
    exact ⟨"y", 2, 1, .inl ⟨⟨by simp [exB], .inr ⟨rfl, rfl⟩⟩, rfl⟩⟩
  · simp only [exB, List.mem_cons, List.not_mem_nil, or_false] at hl
    rcases hl with rfl | rfl <;> cases hg

/-- A quotient of a composition. -/
theorem sysQ_ofPlain : sysQ.OfPlain :=
  .quotient (.composition sysA_ofPlain (.comp exB_ok exB_plain (fun _ => .refl _) (getOk_eq _)) sysAB_eq)
    sysA_ofPlain (by decide) (by decide) sysQ_eq

example : ∃ l, sysQ.IsLoc l := by
  obtain ⟨_, h⟩ := Sys.newQuotient_eq sysQ_eq
  rw [h]; exact ⟨_, .inr (.inl rfl)⟩

/-! ## Where the bounds are too small -/

/-- The clock has this value, all others are zero. -/
noncomputable def clockAt (i : Nat) (x : ℝ) : Val := fun j => if j = i then x else 0

theorem clockAt_valid {n i : Nat} {x : ℝ} (h0 : 0 < i) (hn : i < n) (hx : 0 ≤ x) : Valid n (clockAt i x) := by
  refine ⟨?_, fun j => ?_, fun j hj => ?_⟩
  · have : 0 ≠ i := by omega
    simp [clockAt, this]
  · unfold clockAt; split <;> linarith
  · have : j ≠ i := by omega
    simp [clockAt, this]

theorem clockAt_equiv {b : Bounds} {i : Nat} {k : Int} {x y : ℝ} (hb : b i = some k) (hx : (k : ℝ) < x)
    (hy : (k : ℝ) < y) : b.Equiv (clockAt i x) (clockAt i y) := by
  intro j
  by_cases h : j = i
  · subst h; right
    intro m hm; rw [hb] at hm; cases hm
    simpa [clockAt] using ⟨hx, hy⟩
  · left; simp [clockAt, h]

/-- A component with one output, with the given guard. -/
def exGuarded (ints : List (String × Int)) (g : BoolE) : Component := ⟨"S", ⟨ints, [("x", 1), ("y", 2)]⟩,
  [⟨"L0", none, .initial, "NORMAL"⟩], [⟨"e", "L0", "L0", .output, some g, none, "o"⟩]⟩

/-- The bounds of the component do not distinguish two valuations of which one can output and the other
cannot. -/
def BoundsTooSmall (c : Component) : Prop :=
  ∃ h : (CompComp.compile (F := Fed4) id c 0).toBool = true, (exComp c h).Accepted ∧
    ∃ l b v w, (exComp c h).ts.initialLoc = .ok (some l) ∧ (exComp c h).ts.localBounds l = .ok b ∧
      Valid 4 v ∧ Valid 4 w ∧ b.Equiv v w ∧ (∃ l' v', (exComp c h).ts.Act l v "o" l' v') ∧
      ¬ ∃ l' w', (exComp c h).ts.Act l w "o" l' w'

theorem boundsTooSmall {c : Component} {g : Fed4} (h : (CompComp.compile (F := Fed4) id c 0).toBool = true)
    (hok : c.okB 4 = true) {l : LocTree Fed4} (hl : (exComp c h).ts.initialLoc = .ok (some l))
    (hinv : l.inv = none) (ha : (exComp c h).ts.hasAction "o" = true)
    (hn : (exComp c h).ts.next l "o" = .ok [⟨.simple "e", g, l, []⟩]) {b : Bounds}
    (hb : (exComp c h).ts.localBounds l = .ok b) {v w : Val} (hv : Valid 4 v) (hw : Valid 4 w)
    (he : b.Equiv v w) (hgv : v ∈ den g) (hgw : w ∉ den g) : BoundsTooSmall c := by
  refine ⟨h, exComp_accepted hok, l, b, v, w, hl, hb, hv, hw, he, ⟨l, v, ha, _, hn, _, List.mem_singleton.2 rfl,
    ⟨hgv, ?_⟩, rfl, rfl⟩, ?_⟩
  · intro i hi
    rw [hinv] at hi; cases hi
  · rintro ⟨l', w', _, tr, hn', t, ht, hc, _⟩
    rw [hn] at hn'; cases hn'
    rw [List.mem_singleton] at ht; subst ht
    exact hgw hc.1

/-- The full property is false for `x + 2 <= 10`: the clock is compared with 8, the bound is 0. -/
theorem C37_violated_sum : BoundsTooSmall (exGuarded [] (.le (.add (.var "x") (.int 2)) (.int 10))) := by
  refine boundsTooSmall (l := .leaf (.simple "L0") none .initial) (g := constrain univ 1 0 (.LE 8))
    (by decide +kernel) (by decide) rfl rfl (by decide +kernel) rfl (b := Component.maxBounds _) rfl
    (v := clockAt 1 1) (w := clockAt 1 9) (clockAt_valid (by decide) (by decide) (by norm_num))
    (clockAt_valid (by decide) (by decide) (by norm_num))
    (clockAt_equiv (k := 0) (by decide) (by norm_num) (by norm_num)) ?_ ?_
  · rw [den_constrain _ _ _ _ (by decide) (by decide), den_univ]
    exact ⟨clockAt_valid (by decide) (by decide) (by norm_num), by simp [Ineq.Sat, clockAt]⟩
  · rw [den_constrain _ _ _ _ (by decide) (by decide)]
    rintro ⟨_, h⟩
    simp [Ineq.Sat, clockAt] at h
    norm_num at h

/-- The full property is false for `x - y <= 5`: both bounds are 0. -/
theorem C37_violated_difference :
    BoundsTooSmall (exGuarded [] (.le (.dif (.var "x") (.var "y")) (.int 5))) := by
  refine boundsTooSmall (l := .leaf (.simple "L0") none .initial) (g := constrain univ 1 2 (.LE 5))
    (by decide +kernel) (by decide) rfl rfl (by decide +kernel) rfl (b := Component.maxBounds _) rfl
    (v := clockAt 1 1) (w := clockAt 1 9) (clockAt_valid (by decide) (by decide) (by norm_num))
    (clockAt_valid (by decide) (by decide) (by norm_num))
    (clockAt_equiv (k := 0) (by decide) (by norm_num) (by norm_num)) ?_ ?_
  · rw [den_constrain _ _ _ _ (by decide) (by decide), den_univ]
    exact ⟨clockAt_valid (by decide) (by decide) (by norm_num), by simp [Ineq.Sat, clockAt]⟩
  · rw [den_constrain _ _ _ _ (by decide) (by decide)]
    rintro ⟨_, h⟩
    simp [Ineq.Sat, clockAt] at h
    norm_num at h

/-- The full property is false for `x <= N` with a declared constant `N`: the bound is 0. -/
theorem C37_violated_named : BoundsTooSmall (exGuarded [("N", 8)] (.le (.var "x") (.var "N"))) := by
  refine boundsTooSmall (l := .leaf (.simple "L0") none .initial) (g := constrain univ 1 0 (.LE 8))
    (by decide +kernel) (by decide) rfl rfl (by decide +kernel) rfl (b := Component.maxBounds _) rfl
    (v := clockAt 1 1) (w := clockAt 1 9) (clockAt_valid (by decide) (by decide) (by norm_num))
    (clockAt_valid (by decide) (by decide) (by norm_num))
    (clockAt_equiv (k := 0) (by decide) (by norm_num) (by norm_num)) ?_ ?_
  · rw [den_constrain _ _ _ _ (by decide) (by decide), den_univ]
    exact ⟨clockAt_valid (by decide) (by decide) (by norm_num), by simp [Ineq.Sat, clockAt]⟩
  · rw [den_constrain _ _ _ _ (by decide) (by decide)]
    rintro ⟨_, h⟩
    simp [Ineq.Sat, clockAt] at h
    norm_num at h

end Reveaal
