import Verif.Props.C80Det

/-!
# C80: what refinement queries say about determinism is what determinism queries say
-/

namespace Reveaal
open ZoneLib

section
variable {F : Type} [ZoneLib F]

/-! ## The consistency check does not report that a system is not deterministic -/

theorem consInputTransitions_kind {visit : State F → List (State F) → Res (Visit (ConsFailure F) F)} {ts : TS F}
    (hv : ∀ s p x p', visit s p = .ok (some x, p') → ∀ f, x ≠ .notDeterministic f) {s : State F} :
    ∀ {tl : List (Transition F)} {p p' : List (State F)} {x : ConsFailure F},
      consInputTransitions visit ts s tl p = .ok (some x, p') → ∀ f, x ≠ .notDeterministic f
  | [], p, p', x, h => by simp [consInputTransitions] at h
  | t :: tl, p, p', x, h => by
    rw [consInputTransitions] at h
    split at h
    · obtain ⟨ns, _, h⟩ := bind_ok h
      obtain ⟨⟨o, p1⟩, h1, h⟩ := bind_ok h
      cases o with
      | some y => cases h; exact hv _ _ _ _ h1
      | none => exact consInputTransitions_kind hv h
    · exact consInputTransitions_kind hv h

theorem consInputs_kind {visit : State F → List (State F) → Res (Visit (ConsFailure F) F)} {ts : TS F}
    (hv : ∀ s p x p', visit s p = .ok (some x, p') → ∀ f, x ≠ .notDeterministic f) {s : State F} :
    ∀ {as : List String} {p p' : List (State F)} {x : ConsFailure F},
      consInputs visit ts s as p = .ok (some x, p') → ∀ f, x ≠ .notDeterministic f
  | [], p, p', x, h => by simp [consInputs] at h
  | a :: as, p, p', x, h => by
    rw [consInputs] at h
    obtain ⟨trans, _, h⟩ := bind_ok h
    obtain ⟨⟨o, p1⟩, h1, h⟩ := bind_ok h
    cases o with
    | some y => cases h; exact consInputTransitions_kind hv h1
    | none => exact consInputs_kind hv h

theorem consHelper_kind {ts : TS F} {ordI ordO : Nat → List String} :
    ∀ {n : Nat} {s : State F} {p p' : List (State F)} {x : ConsFailure F},
      consHelper ts ordI ordO n s p = .ok (some x, p') → ∀ f, x ≠ .notDeterministic f
  | 0, s, p, p', x, h => by cases h
  | n + 1, s, p, p', x, h => by
    rw [consHelper] at h
    split at h
    · cases h
    split at h
    · cases h
    split at h
    · cases h
      intro f e
      cases e
    obtain ⟨⟨o, p1⟩, h1, h⟩ := bind_ok h
    cases o with
    | some y => cases h; exact consInputs_kind (fun _ _ _ _ h => consHelper_kind h) h1
    | none =>
      dsimp only at h
      split at h
      · cases h
      obtain ⟨⟨b, p2⟩, h2, h⟩ := bind_ok h
      cases b with
      | true => cases h
      | false =>
        cases h
        intro f e
        cases e

theorem isLeastConsistent_kind {ts : TS F} {ordI ordO : Nat → List String} {n : Nat} {x : ConsFailure F}
    (h : isLeastConsistent ts ordI ordO n = .ok (some x)) (f : DetFailure F) : x ≠ .notDeterministic f := by
  unfold isLeastConsistent at h
  obtain ⟨o, _, h⟩ := bind_ok h
  cases o with
  | none => cases h; intro e; cases e
  | some s =>
    obtain ⟨s1, _, h⟩ := bind_ok h
    obtain ⟨⟨o, p⟩, h1, h⟩ := bind_ok h
    have e : o = some x := Except.ok.inj h
    subst e
    exact consHelper_kind h1 f

theorem Sys.checkCons_kind {s : Sys F} {ord : List Bool → Orders} {n : Nat} {x : ConsFailure F}
    (h : s.checkCons ord n = .ok (some x)) (f : DetFailure F) : x ≠ .notDeterministic f := by
  induction s generalizing ord with
  | comp c => exact isLeastConsistent_kind h f
  | composition l r _ _ _ _ _ ihl ihr =>
    rw [Sys.checkCons] at h
    obtain ⟨o, h1, h⟩ := bind_ok h
    cases o with
    | some y => cases h; exact ihl h1
    | none => exact ihr h
  | conjunction l r _ _ ihl ihr =>
    rw [Sys.checkCons] at h
    obtain ⟨o, h1, h⟩ := bind_ok h
    cases o with
    | some y => cases h; exact ihl h1
    | none => exact ihr h
  | quotient l r _ _ _ _ ihl ihr =>
    rw [Sys.checkCons] at h
    obtain ⟨o, h1, h⟩ := bind_ok h
    cases o with
    | some y => cases h; exact ihr h1
    | none => exact ihl h

/-- The check made before a refinement reports that a system is not deterministic exactly if a component has a clash. -/
theorem Sys.precheck_mixed {s : Sys F} (hs : s.PlainLeaves) {ord : List Bool → Orders} (ho : s.ActOrders ord) {n : Nat}
    {o : Option (ConsFailure F)} (h : s.precheck ord n = .ok o) : (∃ f, o = some (.notDeterministic f)) ↔ s.Mixed := by
  obtain ⟨a, h1, h⟩ := bind_ok h
  rw [← Sys.checkDet_mixed hs ho h1]
  cases a with
  | some f => cases h; exact ⟨fun _ => rfl, fun _ => ⟨f, rfl⟩⟩
  | none =>
    refine ⟨?_, fun h => by cases h⟩
    rintro ⟨f, rfl⟩
    exact absurd rfl (Sys.checkCons_kind h f)

end

/-! ## Answers -/

section
variable {Z : Nat → Type} [∀ d, ZoneLib (Z d)]

/-- **C80** `refinement: A <= B` is refused because `A` is not deterministic exactly if `determinism: A` is answered with
no; and if nothing is wrong with `A`, it is refused because `B` is not deterministic exactly if `determinism: B` is answered
with no.  The queries may be asked with different hash orders, one with and one without clock reduction.

Missing from the full property: the expressions may not contain quotients, and the conditions on the components of C64. -/
theorem C80_refused_partial (hZ : ∀ d, dim (Z d) = d + 1) (X X1 X2 : QueryEnv Z) (hX : X.Fair) (hX1 : X1.Fair)
    (hX2 : X2.Fair) (load : String → Res Component) (hload : ∀ n c, load n = .ok c → c.decls.Numbered) (e1 e2 : SysExpr)
    (h1 : e1.NoQuotient) (h2 : e2.NoQuotient) (d d1 d2 : Nat) (s t : Sys (Z d)) (s1 : Sys (Z d1)) (s2 : Sys (Z d2))
    (A : X.Asks load e1 e2 d s t) (A1 : X1.AsksAbout load e1 d1 s1) (A2 : X2.AsksAbout load e2 d2 s2) (n n1 n2 : Nat)
    (o : Option (RefFailure (Z n))) (o1 : Option (DetFailure (Z n1))) (o2 : Option (DetFailure (Z n2)))
    (k : X.run load (.refinement e1 e2) = .ok (.refinement n o))
    (k1 : X1.run load (.determinism e1) = .ok (.determinism n1 o1))
    (k2 : X2.run load (.determinism e2) = .ok (.determinism n2 o2)) :
    ((∃ f, o = some (.precheck true (.notDeterministic f))) ↔ o1 ≠ none) ∧
      ((∀ g, o ≠ some (.precheck true g)) → ((∃ f, o = some (.precheck false (.notDeterministic f))) ↔ o2 ≠ none)) := by
  have x1 := A1.exact hZ hX1 hload h1 k1
  have x2 := A2.exact hZ hX2 hload h2 k2
  obtain ⟨l, r, q, hr, hc, ht, m1, m2⟩ := A
  obtain ⟨r1, q1, hr1, hc1, ht1, hs1⟩ := A1
  obtain ⟨r2, q2, hr2, hc2, ht2, hs2⟩ := A2
  obtain ⟨kk, p, ha, hb, _⟩ := getRecipes_two hr
  have y1 := same_expression_mixed hload h1 ha (getRecipes_one hr1) (by rw [hZ]; omega)
    (fun c hm => by rw [hZ]; exact hc.left c hm) m1 hs1
  have y2 := same_expression_mixed hload h2 hb (getRecipes_one hr2) (by rw [hZ]; omega)
    (fun c hm => by rw [hZ]; exact hc.right c hm) m2 hs2
  have nl := (recipe_shift hload h1 ha).2.1
  have nr := (recipe_shift hload h2 hb).2.1
  obtain ⟨l', r', d', ρ, σ, s', t', j, j', o0, a, b, hdis, hs', ht', hck, hA⟩ := X.refinement_form hZ hX hload hr hc k
  cases hA
  rw [← hZ, ← hZ] at a b
  obtain ⟨_, _, als, _, _⟩ := a.behaves (hX.compiled n).2.2.1 m1 hs'
  obtain ⟨_, _, alt, _, _⟩ := b.behaves (hX.compiled n).2.2.2 m2 ht'
  obtain ⟨env, _, _, hp, m1⟩ := m1
  obtain ⟨env', _, _, hp', m2⟩ := m2
  have os := a.ordinary (Recipe.lined nl) (fun c hm => ht c (List.mem_append_left _ hm)) hp (hX.compiled n).2.2.1 m1 hs'
  have ot := b.ordinary (Recipe.lined nr) (fun c hm => ht c (List.mem_append_right _ hm)) hp' (hX.compiled n).2.2.2 m2 ht'
  have cs := Recipe.compile_calmLeaves hp nl (fun c hm => by
    rw [hZ]
    exact ⟨(hc.left c hm).1.clear.ok, (hc.left c hm).2⟩) m1
  have ct := Recipe.compile_calmLeaves hp' nr (fun c hm => by
    rw [hZ]
    exact ⟨(hc.right c hm).1.clear.ok, (hc.right c hm).2⟩) m2
  have z1 := als.mixed a.fits a.inj cs os.calmLeaves
  have z2 := alt.mixed b.fits b.inj ct ot.calmLeaves
  have some_ne : ∀ {α : Type} (o : Option α), o ≠ none ↔ o.isSome = true := fun o => by cases o <;> simp
  rw [some_ne, some_ne, x1, x2, ← y1, ← y2, z1, z2]
  unfold checkRefinement at hck
  obtain ⟨p1, hp1, hck⟩ := bind_ok hck
  have w1 := Sys.precheck_mixed os.plain.leaves (hX.checks n s').1 hp1
  rw [← w1]
  cases p1 with
  | some x =>
    cases hck
    refine ⟨⟨?_, ?_⟩, fun h => absurd rfl (h x)⟩
    · rintro ⟨f, e⟩
      cases e
      exact ⟨f, rfl⟩
    · rintro ⟨f, e⟩
      cases e
      exact ⟨f, rfl⟩
  | none =>
  obtain ⟨p2, hp2, hck⟩ := bind_ok hck
  have w2 := Sys.precheck_mixed ot.plain.leaves (hX.checks n t').2 hp2
  rw [← w2]
  cases p2 with
  | some x =>
    cases hck
    refine ⟨⟨?_, ?_⟩, fun _ => ⟨?_, ?_⟩⟩
    · rintro ⟨f, e⟩; cases e
    · rintro ⟨f, e⟩; cases e
    · rintro ⟨f, e⟩
      cases e
      exact ⟨f, rfl⟩
    · rintro ⟨f, e⟩
      cases e
      exact ⟨f, rfl⟩
  | none =>
  have key : ∀ side f, o ≠ some (.precheck side f) := by
    rintro side f rfl
    dsimp only at hck
    split at hck
    · rename_i hx
      cases hck
      unfold Refine.checkAlphabets at hx
      repeat' split at hx
      all_goals cases hx
    · exact explore_fail hck
  refine ⟨⟨?_, ?_⟩, fun _ => ⟨?_, ?_⟩⟩
  · rintro ⟨f, e⟩; exact absurd e (key _ _)
  · rintro ⟨f, e⟩; cases e
  · rintro ⟨f, e⟩; exact absurd e (key _ _)
  · rintro ⟨f, e⟩; cases e

end

/-! ## A concrete case -/

/-- Non-vacuity: `determinism: M` is answered with no, and `refinement: A <= M` is refused because `M` is not
deterministic. -/
example : ∃ g, queries80.run load82 (.refinement (.component "A" none) (.component "M" none)) =
    .ok (.refinement 1 (some (.precheck false (.notDeterministic g)))) := by
  have h1 := detAnswer_yes (d := 1) (x := queries80.run load82 (.determinism (.component "A" none))) (by decide +kernel)
  obtain ⟨f, h2⟩ := detAnswer_no (d := 0) (x := queries80.run load82 (.determinism (.component "M" none))) (by decide +kernel)
  obtain ⟨o, h, ho⟩ : ∃ o, queries80.run load82 (.refinement (.component "A" none) (.component "M" none)) =
      .ok (.refinement 1 o) ∧ ∀ g, o ≠ some (.precheck true g) := by
    have key : (match queries80.run load82 (.refinement (.component "A" none) (.component "M" none)) with
        | .ok (.refinement d (some (.precheck false _))) => d == 1
        | _ => false) = true := by decide +kernel
    split at key
    · rename_i d g e
      have hd := eq_of_beq key
      subst hd
      exact ⟨_, e, fun g h => by cases h⟩
    · cases key
  have := (C80_refused_partial dim_fedD queries80 queries80 queries80 queries80_fair queries80_fair queries80_fair load82
    load82_numbered (.component "A" none) (.component "M" none) trivial trivial 1 1 0 _ _ _ _
    ⟨.component (exQuick79 1) none, .component exTwice82 none, none, rfl,
      ⟨by decide, fun c hm => by rw [List.mem_singleton.1 hm]; exact quick82.1,
        fun c hm => by rw [List.mem_singleton.1 hm]; exact twice82_one.1, .inl rfl, (fun h => by cases h),
        (fun h => by cases h), fun h => by cases h⟩, fun c hm => by
        rcases List.mem_append.1 hm with hm | hm
        · rw [List.mem_singleton.1 hm]; exact quick82.2
        · rw [List.mem_singleton.1 hm]; exact twice82_one.2, means80 (getOk_eq (by decide +kernel)),
      means80 (getOk_eq (by decide +kernel))⟩
    (asks82 (r := .component (exQuick79 1) none) (by decide) rfl (fun c hm => by
      rw [List.mem_singleton.1 hm]; exact quick82) (means80 (getOk_eq (by decide +kernel))))
    (asks82 (r := .component exTwice82 none) (by decide) rfl (fun c hm => by
      rw [List.mem_singleton.1 hm]; exact twice82_zero) (means80 (getOk_eq (by decide +kernel))))
    1 1 0 o none (some f) h h1 h2).2 ho
  obtain ⟨g, rfl⟩ := this.2 (fun h => by cases h)
  exact ⟨g, h⟩

end Reveaal
