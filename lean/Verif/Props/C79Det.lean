import Verif.Props.C80Checks
import Verif.Props.C80Quot

/-!
# C79: determinism queries about the same components are answered alike
-/

namespace Reveaal
open ZoneLib

/-- The components an expression names. -/
def SysExpr.named : SysExpr → List SysExpr
  | .component n i => [.component n i]
  | .composition a b => a.named ++ b.named
  | .conjunction a b => a.named ++ b.named
  | .quotient a b => a.named ++ b.named

section
variable {F G : Type} [ZoneLib F] [ZoneLib G] {load : String → Res Component}

/-- The system of a named component, somewhere among the systems of a query. -/
def ClashIn (F : Type) [ZoneLib F] (load : String → Res Component) (p : SysExpr) : Prop :=
  ∃ k k' q q' r, ∃ s : Sys F, getSystemRecipe load p k q = .ok (r, k', q') ∧
    (∀ c ∈ r.components, c.Reducible (dim F) ∧ c.UpdatesAgree) ∧ r.Means s ∧ s.Mixed

/-- The leaves of a compiled system, with or without quotients. -/
theorem Recipe.compile_calmTree : ∀ {r : Recipe} {env : CompileEnv F} {i j : Nat} {s : Sys F}, env.Perm →
    (∀ c ∈ r.components, c.Ok (dim F) ∧ c.UpdatesAgree) → r.compile env i = .ok (s, j) → s.CalmLeaves
  | .composition l r, env, i, j, s, he, hc, hs => by
    obtain ⟨⟨sl, k⟩, h1, hs⟩ := bind_ok hs
    obtain ⟨⟨sr, k'⟩, h2, hs⟩ := bind_ok hs
    obtain ⟨s0, h3, hs⟩ := bind_ok hs
    cases hs
    obtain ⟨_, e⟩ := Sys.newComposition_eq h3
    rw [e]
    exact ⟨Recipe.compile_calmTree (env := env.sub false) he (fun c hm => hc c (List.mem_append_left _ hm)) h1,
      Recipe.compile_calmTree (env := env.sub true) he (fun c hm => hc c (List.mem_append_right _ hm)) h2⟩
  | .conjunction l r, env, i, j, s, he, hc, hs => by
    obtain ⟨⟨sl, k⟩, h1, hs⟩ := bind_ok hs
    obtain ⟨⟨sr, k'⟩, h2, hs⟩ := bind_ok hs
    obtain ⟨s0, h3, hs⟩ := bind_ok hs
    cases hs
    obtain ⟨_, _, e⟩ := Sys.newConjunction_eq (newConjunction_unchecked h3)
    rw [e]
    exact ⟨Recipe.compile_calmTree (env := env.sub false) he (fun c hm => hc c (List.mem_append_left _ hm)) h1,
      Recipe.compile_calmTree (env := env.sub true) he (fun c hm => hc c (List.mem_append_right _ hm)) h2⟩
  | .quotient l r _, env, i, j, s, he, hc, hs => by
    obtain ⟨⟨sl, k⟩, h1, hs⟩ := bind_ok hs
    obtain ⟨⟨sr, k'⟩, h2, hs⟩ := bind_ok hs
    obtain ⟨s0, h3, hs⟩ := bind_ok hs
    cases hs
    obtain ⟨_, e⟩ := Sys.newQuotient_eq (newQuotient_unchecked h3)
    rw [e]
    exact ⟨Recipe.compile_calmTree (env := env.sub false) he (fun c hm => hc c (List.mem_append_left _ hm)) h1,
      Recipe.compile_calmTree (env := env.sub true) he (fun c hm => hc c (List.mem_append_right _ hm)) h2⟩
  | .component c q, env, i, j, s, he, hc, hs => by
    have hm := hc c (by unfold Recipe.components; simp)
    obtain ⟨x, h1, hs⟩ := bind_ok hs
    cases hs
    exact ⟨(Sys.Accepted.comp hm.1 (he _) h1).good, compile_edgesAgree hm.1 hm.2 h1⟩

/-- What a recipe of a quotient is made of. -/
theorem getSystemRecipe_quotient {a b : SysExpr} {k k' : Nat} {q q' : Option Nat} {r : Recipe}
    (h : getSystemRecipe load (.quotient a b) k q = .ok (r, k', q')) : ∃ l1 a1 b1 l2 a2 b2 c,
      getSystemRecipe load a k q = .ok (l1, a1, b1) ∧ getSystemRecipe load b a1 b1 = .ok (l2, a2, b2) ∧ a2 ≤ k' ∧
      r = .quotient l1 l2 c := by
  obtain ⟨⟨l1, a1, b1⟩, u1, h⟩ := bind_ok h
  obtain ⟨⟨l2, a2, b2⟩, u2, h⟩ := bind_ok h
  cases b2 <;> cases h
  · exact ⟨_, _, _, _, _, _, _, u1, u2, Nat.le_succ _, rfl⟩
  · exact ⟨_, _, _, _, _, _, _, u1, u2, le_rfl, rfl⟩

theorem mixed_named : ∀ {e : SysExpr} {k k' : Nat} {q q' : Option Nat} {r : Recipe} {s : Sys F},
    getSystemRecipe load e k q = .ok (r, k', q') → (∀ c ∈ r.components, c.Reducible (dim F) ∧ c.UpdatesAgree) →
    r.Means s → s.Mixed → ∃ p ∈ e.named, ClashIn F load p
  | .component n i, k, k', q, q', r, s, h, hc, hs, hm =>
    ⟨_, List.mem_singleton.2 rfl, k, k', q, q', r, s, h, hc, hs, hm⟩
  | .composition a b, k, k', q, q', r, s, h, hc, ⟨env, i, j, hp, hs⟩, hm => by
    obtain ⟨⟨l1, a1, b1⟩, u1, h⟩ := bind_ok h
    obtain ⟨⟨l2, a2, b2⟩, u2, h⟩ := bind_ok h
    cases h
    obtain ⟨⟨x1, i1⟩, y1, hs⟩ := bind_ok hs
    obtain ⟨⟨x2, i2⟩, y2, hs⟩ := bind_ok hs
    obtain ⟨z, y3, hs⟩ := bind_ok hs
    cases hs
    obtain ⟨_, rfl⟩ := Sys.newComposition_eq y3
    rcases hm with hm | hm
    · obtain ⟨p, h1, h2⟩ := mixed_named u1 (fun c hm => hc c (List.mem_append_left _ hm)) ⟨env.sub false, _, _, hp, y1⟩ hm
      exact ⟨p, List.mem_append_left _ h1, h2⟩
    · obtain ⟨p, h1, h2⟩ := mixed_named u2 (fun c hm => hc c (List.mem_append_right _ hm)) ⟨env.sub true, _, _, hp, y2⟩ hm
      exact ⟨p, List.mem_append_right _ h1, h2⟩
  | .conjunction a b, k, k', q, q', r, s, h, hc, ⟨env, i, j, hp, hs⟩, hm => by
    obtain ⟨⟨l1, a1, b1⟩, u1, h⟩ := bind_ok h
    obtain ⟨⟨l2, a2, b2⟩, u2, h⟩ := bind_ok h
    cases h
    obtain ⟨⟨x1, i1⟩, y1, hs⟩ := bind_ok hs
    obtain ⟨⟨x2, i2⟩, y2, hs⟩ := bind_ok hs
    obtain ⟨z, y3, hs⟩ := bind_ok hs
    cases hs
    obtain ⟨_, _, rfl⟩ := Sys.newConjunction_eq (newConjunction_unchecked y3)
    rcases hm with hm | hm
    · obtain ⟨p, h1, h2⟩ := mixed_named u1 (fun c hm => hc c (List.mem_append_left _ hm)) ⟨env.sub false, _, _, hp, y1⟩ hm
      exact ⟨p, List.mem_append_left _ h1, h2⟩
    · obtain ⟨p, h1, h2⟩ := mixed_named u2 (fun c hm => hc c (List.mem_append_right _ hm)) ⟨env.sub true, _, _, hp, y2⟩ hm
      exact ⟨p, List.mem_append_right _ h1, h2⟩
  | .quotient a b, k, k', q, q', r, s, h, hc, ⟨env, i, j, hp, hs⟩, hm => by
    obtain ⟨l1, a1, b1, l2, a2, b2, c, u1, u2, _, rfl⟩ := getSystemRecipe_quotient h
    obtain ⟨⟨x1, i1⟩, y1, hs⟩ := bind_ok hs
    obtain ⟨⟨x2, i2⟩, y2, hs⟩ := bind_ok hs
    obtain ⟨z, y3, hs⟩ := bind_ok hs
    cases hs
    obtain ⟨_, rfl⟩ := Sys.newQuotient_eq (newQuotient_unchecked y3)
    rcases hm with hm | hm
    · obtain ⟨p, h1, h2⟩ := mixed_named u1 (fun c hm => hc c (List.mem_append_left _ hm)) ⟨env.sub false, _, _, hp, y1⟩ hm
      exact ⟨p, List.mem_append_left _ h1, h2⟩
    · obtain ⟨p, h1, h2⟩ := mixed_named u2 (fun c hm => hc c (List.mem_append_right _ hm)) ⟨env.sub true, _, _, hp, y2⟩ hm
      exact ⟨p, List.mem_append_right _ h1, h2⟩

theorem mixed_of_named (hload : ∀ n c, load n = .ok c → c.decls.Numbered) : ∀ {e : SysExpr} {k k' : Nat} {q q' : Option Nat}
    {r : Recipe} {s : Sys F}, getSystemRecipe load e k q = .ok (r, k', q') → k' < dim F →
    r.Means s → ∀ p ∈ e.named, ClashIn G load p → s.Mixed
  | .component n i, k, k', q, q', r, s, h, hk, hs, p, hp, ⟨m, m', q1, q1', r1, s1, h1, hc, hs1, hm⟩ => by
    rw [List.mem_singleton.1 hp] at h1
    exact (same_expression_mixed (e := .component n i) hload trivial h1 h hk hc hs1 hs).1 hm
  | .composition a b, k, k', q, q', r, s, h, hk, ⟨env, i, j, hp, hs⟩, p, hmem, hcl => by
    obtain ⟨⟨l1, a1, b1⟩, u1, h⟩ := bind_ok h
    obtain ⟨⟨l2, a2, b2⟩, u2, h⟩ := bind_ok h
    cases h
    obtain ⟨⟨x1, i1⟩, y1, hs⟩ := bind_ok hs
    obtain ⟨⟨x2, i2⟩, y2, hs⟩ := bind_ok hs
    obtain ⟨z, y3, hs⟩ := bind_ok hs
    cases hs
    obtain ⟨_, rfl⟩ := Sys.newComposition_eq y3
    rcases List.mem_append.1 hmem with hmem | hmem
    · exact .inl (mixed_of_named hload u1 (lt_of_le_of_lt (recipe_dim_mono u2) hk) ⟨env.sub false, _, _, hp, y1⟩ p hmem hcl)
    · exact .inr (mixed_of_named hload u2 hk ⟨env.sub true, _, _, hp, y2⟩ p hmem hcl)
  | .conjunction a b, k, k', q, q', r, s, h, hk, ⟨env, i, j, hp, hs⟩, p, hmem, hcl => by
    obtain ⟨⟨l1, a1, b1⟩, u1, h⟩ := bind_ok h
    obtain ⟨⟨l2, a2, b2⟩, u2, h⟩ := bind_ok h
    cases h
    obtain ⟨⟨x1, i1⟩, y1, hs⟩ := bind_ok hs
    obtain ⟨⟨x2, i2⟩, y2, hs⟩ := bind_ok hs
    obtain ⟨z, y3, hs⟩ := bind_ok hs
    cases hs
    obtain ⟨_, _, rfl⟩ := Sys.newConjunction_eq (newConjunction_unchecked y3)
    rcases List.mem_append.1 hmem with hmem | hmem
    · exact .inl (mixed_of_named hload u1 (lt_of_le_of_lt (recipe_dim_mono u2) hk) ⟨env.sub false, _, _, hp, y1⟩ p hmem hcl)
    · exact .inr (mixed_of_named hload u2 hk ⟨env.sub true, _, _, hp, y2⟩ p hmem hcl)
  | .quotient a b, k, k', q, q', r, s, h, hk, ⟨env, i, j, hp, hs⟩, p, hmem, hcl => by
    obtain ⟨l1, a1, b1, l2, a2, b2, c, u1, u2, h2, rfl⟩ := getSystemRecipe_quotient h
    obtain ⟨⟨x1, i1⟩, y1, hs⟩ := bind_ok hs
    obtain ⟨⟨x2, i2⟩, y2, hs⟩ := bind_ok hs
    obtain ⟨z, y3, hs⟩ := bind_ok hs
    cases hs
    obtain ⟨_, rfl⟩ := Sys.newQuotient_eq (newQuotient_unchecked y3)
    have hk := lt_of_le_of_lt h2 hk
    rcases List.mem_append.1 hmem with hmem | hmem
    · exact .inl (mixed_of_named hload u1 (lt_of_le_of_lt (recipe_dim_mono u2) hk) ⟨env.sub false, _, _, hp, y1⟩ p hmem hcl)
    · exact .inr (mixed_of_named hload u2 hk ⟨env.sub true, _, _, hp, y2⟩ p hmem hcl)

end

section
variable {Z : Nat → Type} [∀ d, ZoneLib (Z d)]

/-- The quotients of an expression are in a line (see `Recipe.Lined`; any expression without quotients will do). -/
def SysExpr.LinedIn (load : String → Res Component) (e : SysExpr) : Prop :=
  ∀ r k q, getSystemRecipe load e 0 none = .ok (r, k, q) → r.Lined

theorem SysExpr.NoQuotient.linedIn {load : String → Res Component} (hload : ∀ n c, load n = .ok c → c.decls.Numbered)
    {e : SysExpr} (he : e.NoQuotient) : e.LinedIn load :=
  fun _ _ _ h => Recipe.lined (recipe_shift hload he h).2.1

/-- The answer is no exactly if some component has a clash, also for expressions with quotients. -/
theorem QueryEnv.AsksAbout.exact_lined (hZ : ∀ d, dim (Z d) = d + 1) {X : QueryEnv Z} (hX : X.Fair)
    {load : String → Res Component} (hload : ∀ n c, load n = .ok c → c.decls.Numbered) {e : SysExpr} (he : e.LinedIn load)
    {d : Nat} {s : Sys (Z d)} (hA : X.AsksAbout load e d s) {d' : Nat} {o : Option (DetFailure (Z d'))}
    (h : X.run load (.determinism e) = .ok (.determinism d' o)) : o.isSome = true ↔ s.Mixed := by
  obtain ⟨r, q, hr, hc, ht, hs⟩ := hA
  obtain ⟨⟨d1, s'⟩, h1, h⟩ := bind_ok h
  obtain ⟨o1, h2, h⟩ := bind_ok h
  cases h
  obtain ⟨r', ρ, j, a, h3⟩ := X.system_form hZ hX hload hr hc h1
  obtain ⟨_, _, al, _, _⟩ := a.behaves (hX.compiled d').2.2.1 hs h3
  obtain ⟨env, _, _, hp, hs⟩ := hs
  have os := a.ordinary (he _ _ _ (getRecipes_one hr)) ht hp (hX.compiled d').2.2.1 hs h3
  have cs := Recipe.compile_calmTree hp (fun c hm => by
    rw [hZ]
    exact ⟨(hc.comps c hm).1.clear.ok, (hc.comps c hm).2⟩) hs
  exact (Sys.checkDet_mixed os.plain.leaves (hX.checks d' s').1 h2).trans (al.mixed a.fits a.inj cs os.calmLeaves).symm

/-- **C79** Two determinism queries about the same components are answered alike: however often they are named, in which
order and with which grouping, and whether they are composed, conjoined or divided.  The queries may be asked with different
hash orders, one with and one without clock reduction.

Missing from the full property: quotients that are not in a line, and the conditions on the components of C64. -/
theorem C79_determinism_answers_partial (hZ : ∀ d, dim (Z d) = d + 1) (X X' : QueryEnv Z) (hX : X.Fair) (hX' : X'.Fair)
    (load : String → Res Component) (hload : ∀ n c, load n = .ok c → c.decls.Numbered) (e e' : SysExpr) (he : e.LinedIn load)
    (he' : e'.LinedIn load) (hn : ∀ p, p ∈ e.named ↔ p ∈ e'.named) (d d' : Nat) (s : Sys (Z d)) (s' : Sys (Z d'))
    (A : X.AsksAbout load e d s) (A' : X'.AsksAbout load e' d' s') (n n' : Nat)
    (o : Option (DetFailure (Z n))) (o' : Option (DetFailure (Z n')))
    (h : X.run load (.determinism e) = .ok (.determinism n o))
    (h' : X'.run load (.determinism e') = .ok (.determinism n' o')) : o = none ↔ o' = none := by
  have x := A.exact_lined hZ hX hload he h
  have x' := A'.exact_lined hZ hX' hload he' h'
  obtain ⟨r, q, hr, hc, ht, hs⟩ := A
  obtain ⟨r', q', hr', hc', ht', hs'⟩ := A'
  have g := getRecipes_one hr
  have g' := getRecipes_one hr'
  have key : s.Mixed ↔ s'.Mixed := by
    constructor
    · intro hm
      obtain ⟨p, h1, h2⟩ := mixed_named g (fun c hm => by rw [hZ]; exact hc.comps c hm) hs hm
      exact mixed_of_named hload g' (by rw [hZ]; omega) hs' p ((hn p).1 h1) h2
    · intro hm
      obtain ⟨p, h1, h2⟩ := mixed_named g' (fun c hm => by rw [hZ]; exact hc'.comps c hm) hs' hm
      exact mixed_of_named hload g (by rw [hZ]; omega) hs p ((hn p).2 h1) h2
  rw [key, ← x'] at x
  cases o <;> cases o' <;> simp_all

theorem SysExpr.named_component : ∀ {e p : SysExpr}, p ∈ e.named → ∃ n i, p = .component n i
  | .component n i, _, h => ⟨n, i, List.mem_singleton.1 h⟩
  | .composition _ _, _, h | .conjunction _ _, _, h | .quotient _ _, _, h =>
    (List.mem_append.1 h).elim (fun h => named_component h) (fun h => named_component h)

/-- **C80** A determinism query is answered with yes exactly if the determinism queries about the components it names are,
each one on its own.

Missing from the full property: quotients that are not in a line, and the conditions on the components of C64. -/
theorem C80_determinism_named_partial (hZ : ∀ d, dim (Z d) = d + 1) (X X' : QueryEnv Z) (hX : X.Fair) (hX' : X'.Fair)
    (load : String → Res Component) (hload : ∀ n c, load n = .ok c → c.decls.Numbered) (e : SysExpr) (he : e.LinedIn load)
    (d : Nat) (s : Sys (Z d)) (A : X.AsksAbout load e d s) (n : Nat) (o : Option (DetFailure (Z n)))
    (h : X.run load (.determinism e) = .ok (.determinism n o))
    (each : ∀ p ∈ e.named, ∃ d', ∃ s' : Sys (Z d'), X'.AsksAbout load p d' s' ∧
      ∃ n' o', X'.run load (.determinism p) = .ok (.determinism n' o')) :
    o = none ↔ ∀ p ∈ e.named, ∃ n', X'.run load (.determinism p) = .ok (.determinism n' none) := by
  have x := A.exact_lined hZ hX hload he h
  obtain ⟨r, q, hr, hc, ht, hs⟩ := A
  have g := getRecipes_one hr
  have leaf : ∀ p ∈ e.named, p.NoQuotient := fun p hp => by
    obtain ⟨n, i, rfl⟩ := SysExpr.named_component hp
    trivial
  constructor
  · rintro rfl p hp
    obtain ⟨d', s', A', n', o', h'⟩ := each p hp
    have x' := A'.exact hZ hX' hload (leaf p hp) h'
    obtain ⟨r', q', hr', hc', ht', hs'⟩ := A'
    cases o' with
    | none => exact ⟨n', h'⟩
    | some f =>
      have := x.2 (mixed_of_named hload g (by rw [hZ]; omega) hs p hp
        ⟨_, _, _, _, r', s', getRecipes_one hr', fun c hm => by rw [hZ]; exact hc'.comps c hm, hs', x'.1 rfl⟩)
      cases this
  · intro hall
    cases o with
    | none => rfl
    | some f =>
      obtain ⟨p, hp, cl⟩ := mixed_named g (fun c hm => by rw [hZ]; exact hc.comps c hm) hs (x.1 rfl)
      obtain ⟨d', s', A', _⟩ := each p hp
      obtain ⟨n', h'⟩ := hall p hp
      have x' := A'.exact hZ hX' hload (leaf p hp) h'
      obtain ⟨r', q', hr', hc', ht', hs'⟩ := A'
      obtain ⟨m, i, rfl⟩ := SysExpr.named_component hp
      have := x'.2 (mixed_of_named hload (getRecipes_one hr') (by rw [hZ]; omega) hs' _ (List.mem_singleton.2 rfl) cl)
      cases this

end

/-! ## A concrete case -/

/-- Non-vacuity: `determinism: A || M` is answered with no, and so is `determinism: M || A`. -/
example : ∃ g, queries80.run load82 (.determinism (.composition (.component "M" none) (.component "A" none))) =
    .ok (.determinism 1 (some g)) := by
  obtain ⟨g, h1⟩ := detAnswer_no (d := 1) (x := queries80.run load82 (.determinism (.composition (.component "A" none)
    (.component "M" none)))) (by decide +kernel)
  obtain ⟨o, h⟩ : ∃ o, queries80.run load82 (.determinism (.composition (.component "M" none) (.component "A" none))) =
      .ok (.determinism 1 o) := (detAnswer_no (by decide +kernel)).imp' some fun _ h => h
  have := C79_determinism_answers_partial dim_fedD queries80 queries80 queries80_fair queries80_fair load82 load82_numbered
    (.composition (.component "A" none) (.component "M" none)) (.composition (.component "M" none) (.component "A" none))
    (SysExpr.NoQuotient.linedIn load82_numbered ⟨trivial, trivial⟩)
    (SysExpr.NoQuotient.linedIn load82_numbered ⟨trivial, trivial⟩) (by intro p; simp [SysExpr.named]; tauto) 1 1 _ _
    (asks82 (r := .composition (.component (exQuick79 1) none) (.component exTwice82 none)) (by decide) rfl (by
      intro c hc
      simp only [Recipe.components, List.cons_append, List.nil_append, List.mem_cons, List.not_mem_nil, or_false] at hc
      rcases hc with rfl | rfl
      · exact quick82
      · exact twice82_one) (means80 (getOk_eq (by decide +kernel))))
    (asks82 (r := .composition (.component exTwice82 none) (.component (exQuick79 1) none)) (by decide) rfl (by
      intro c hc
      simp only [Recipe.components, List.cons_append, List.nil_append, List.mem_cons, List.not_mem_nil, or_false] at hc
      rcases hc with rfl | rfl
      · exact twice82_one
      · exact quick82) (means80 (getOk_eq (by decide +kernel)))) 1 1 (some g) o h1 h
  cases o with
  | none => cases this.2 rfl
  | some g => exact ⟨g, h⟩

def quot83 : SysExpr := .quotient (.component "T" none) (.component "S" none)

theorem quot83_lined : quot83.LinedIn load81 := by
  intro r k q h
  have e : getSystemRecipe load81 quot83 0 none =
    .ok (.quotient (.component exBoth81 none) (.component (exSay80 "S" "a") none) 1, 1, some 1) := rfl
  rw [e] at h
  cases h
  refine ⟨trivial, trivial, rfl, fun c hc ed he hs => ?_⟩
  rw [List.mem_singleton.1 hc] at he
  rw [List.mem_singleton.1 he] at hs
  cases hs

theorem quot83_asks : queries81.AsksAbout load81 quot83 1 sysQ81 := by
  refine ⟨.quotient (.component exBoth81 none) (.component (exSay80 "S" "a") none) 1, some 1, rfl,
    ⟨by decide, ?_, (fun h => by cases h), fun h => by cases h⟩, ?_, meansQ81⟩
  · intro c hm; exact (comps81_one c (by simp [Recipe.components, comps81] at hm ⊢; tauto)).1
  · intro c hm; exact (comps81_one c (by simp [Recipe.components, comps81] at hm ⊢; tauto)).2

theorem leaf83_asks {n : String} {c : Component} (hr : getRecipes load81 [.component n none] 0 none =
    .ok ([.component c none], 0, none)) (hc : c ∈ comps81) {s : Sys (FedD 0)} (hs : (Recipe.component c none).Means s) :
    queries81.AsksAbout load81 (.component n none) 0 s :=
  ⟨.component c none, none, hr, ⟨by decide, (fun c hm => by rw [List.mem_singleton.1 hm]; exact (comps81_zero _ hc).1),
    (fun h => by cases h), fun h => by cases h⟩, fun c hm => by rw [List.mem_singleton.1 hm]; exact (comps81_zero _ hc).2, hs⟩

/-- Non-vacuity with a quotient: `determinism: T \\ S` is answered with yes, hence `determinism: T` and `determinism: S` are. -/
example : ∃ n', queries81.run load81 (.determinism (.component "T" none)) = .ok (.determinism n' none) := by
  have h := detAnswer_yes (d := 1) (x := queries81.run load81 (.determinism quot83)) (by decide +kernel)
  have h1 := detAnswer_yes (d := 0) (x := queries81.run load81 (.determinism (.component "T" none))) (by decide +kernel)
  have h2 := detAnswer_yes (d := 0) (x := queries81.run load81 (.determinism (.component "S" none))) (by decide +kernel)
  refine (C80_determinism_named_partial dim_fedD queries81 queries81 (plainQueries_fair false) (plainQueries_fair false)
    load81 load81_numbered quot83 quot83_lined 1 sysQ81 quot83_asks 1 none h (fun p hp => ?_)).1 rfl _
    (List.mem_append_left _ (List.mem_singleton.2 rfl))
  simp only [quot83, SysExpr.named, List.cons_append, List.nil_append, List.mem_cons, List.not_mem_nil, or_false] at hp
  rcases hp with rfl | rfl
  · exact ⟨0, _, leaf83_asks (c := exBoth81) rfl (by simp [comps81])
      ⟨envK (FedD 0), 0, _, envK_perm, getOk_eq (by decide +kernel)⟩, _, _, h1⟩
  · exact ⟨0, _, leaf83_asks (c := exSay80 "S" "a") rfl (by simp [comps81])
      ⟨envK (FedD 0), 0, _, envK_perm, getOk_eq (by decide +kernel)⟩, _, _, h2⟩

end Reveaal
