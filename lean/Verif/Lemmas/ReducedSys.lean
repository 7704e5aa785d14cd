import Verif.Lemmas.ReducedComp
import Verif.Lemmas.Recipe
import Verif.Lemmas.Collect

/-!
# A recipe and the same recipe after clock reduction are compiled to alike systems
-/

namespace Reveaal
open ZoneLib
variable {F G : Type} [ZoneLib F] [ZoneLib G]

/-! ## Assignments of the operands of quotients -/

/-- The assignments are to the clocks `C`, or reset `q`, and no clock is assigned two values. -/
def Steady (C : List Nat) (q : Nat) (us : List CUpdate) : Prop :=
  NoConflict us ∧ ∀ u ∈ us, u.clock ∈ C ∨ (u.clock = q ∧ u.value = 0)

theorem Steady.nil {C : List Nat} {q : Nat} : Steady C q [] := ⟨fun u hu => (by cases hu), fun u hu => (by cases hu)⟩

theorem Steady.mono {C C' : List Nat} {q : Nat} {us : List CUpdate} (h : Steady C q us) (hc : ∀ i ∈ C, i ∈ C') :
    Steady C' q us := ⟨h.1, fun u hu => (h.2 u hu).imp_left (hc _)⟩

theorem Steady.append {C C' : List Nat} {q : Nat} {us vs : List CUpdate} (h : Steady C q us) (h' : Steady C' q vs)
    (hd : ∀ i ∈ C, i ∉ C') (hq : q ∉ C) (hq' : q ∉ C') : Steady (C ++ C') q (us ++ vs) := by
  have cross : ∀ u ∈ us, ∀ u' ∈ vs, u.clock = u'.clock → u.value = u'.value := by
    intro u hu u' hu' e
    rcases h.2 u hu with a | ⟨a, b⟩
    · rcases h'.2 u' hu' with a' | ⟨a', _⟩
      · exact absurd (e ▸ a') (hd _ a)
      · exact absurd (a'.symm.trans e.symm ▸ a) hq
    · rcases h'.2 u' hu' with a' | ⟨_, b'⟩
      · exact absurd (a.symm.trans e ▸ a') hq'
      · rw [b, b']
  refine ⟨fun u hu u' hu' e => ?_, fun u hu => ?_⟩
  · rcases List.mem_append.1 hu with hu | hu <;> rcases List.mem_append.1 hu' with hu' | hu'
    · exact h.1 u hu u' hu' e
    · exact cross u hu u' hu' e
    · exact (cross u' hu' u hu e.symm).symm
    · exact h'.1 u hu u' hu' e
  · rcases List.mem_append.1 hu with hu | hu
    · exact (h.2 u hu).imp_left (List.mem_append_left _)
    · exact (h'.2 u hu).imp_left (List.mem_append_right _)

theorem Steady.reset {C : List Nat} {q : Nat} : Steady C q [⟨q, 0⟩] := by
  refine ⟨fun u hu u' hu' _ => ?_, fun u hu => ?_⟩
  · rw [List.mem_singleton] at hu hu'
    rw [hu, hu']
  · rw [List.mem_singleton] at hu
    rw [hu]
    exact .inr ⟨rfl, rfl⟩

theorem combinations_steady {C C' : List Nat} {q : Nat} (hd : ∀ i ∈ C, i ∉ C') (hq : q ∉ C) (hq' : q ∉ C')
    {ls rs : List (Transition F)} {c : CompType} (hc : c.IsProd) {trans : List (Transition F)}
    (h : Transition.combinations ls rs c = .ok trans) (hl : ∀ t ∈ ls, Steady C q t.updates)
    (hr : ∀ t ∈ rs, Steady C' q t.updates) : ∀ t ∈ trans, Steady (C ++ C') q t.updates := by
  obtain ⟨trans', h1, h2, _⟩ := combinations_ok (ls := ls) (rs := rs) hc
  rw [h] at h1; cases h1
  intro t ht
  obtain ⟨l, hl', r, hr', h3⟩ := h2 t ht
  obtain ⟨i, x, _, h4⟩ := combine_ok (l := l) (r := r) hc
  rw [h3] at h4; cases h4
  exact (hl l hl').append (hr r hr') hd hq hq'

/-- The recipe is numbered: components use different clocks, all quotients use one further clock, and no edge assigns
two values to one clock. -/
structure Recipe.SteadyFor (r : Recipe) (q : Nat) : Prop where
  agree : ∀ c ∈ r.components, c.UpdatesAgree
  nodup : r.clockIndices.Nodup
  fresh : q ∉ r.clockIndices
  quot : ∀ c ∈ r.quotientClocks, c = q

theorem Recipe.SteadyFor.split {l r : Recipe} {q : Nat} {cs : List Component} {ns ks : List Nat}
    (hcs : cs = l.components ++ r.components) (hns : ns = l.clockIndices ++ r.clockIndices)
    (hks : ∀ c, c ∈ l.quotientClocks ∨ c ∈ r.quotientClocks → c ∈ ks) (h1 : ∀ c ∈ cs, c.UpdatesAgree)
    (h2 : ns.Nodup) (h3 : q ∉ ns) (h4 : ∀ c ∈ ks, c = q) :
    l.SteadyFor q ∧ r.SteadyFor q ∧ ∀ i ∈ l.clockIndices, i ∉ r.clockIndices := by
  subst hcs hns
  rw [List.nodup_append'] at h2
  exact ⟨⟨fun c hc => h1 c (List.mem_append_left _ hc), h2.1, fun h => h3 (List.mem_append_left _ h),
    fun c hc => h4 c (hks c (.inl hc))⟩, ⟨fun c hc => h1 c (List.mem_append_right _ hc), h2.2.1,
    fun h => h3 (List.mem_append_right _ h), fun c hc => h4 c (hks c (.inr hc))⟩, fun i hi hi' => h2.2.2 hi hi'⟩

theorem Recipe.compile_steady : ∀ {r : Recipe} {env : CompileEnv F} {i j : Nat} {s : Sys F} {q : Nat}, env.Perm →
    r.Ok (dim F) → r.SteadyFor q → r.compile env i = .ok (s, j) → ∀ (x : LocTree F) (a : String)
    (trans : List (Transition F)), s.IsLoc x → s.next x a = .ok trans → ∀ t ∈ trans, Steady r.clockIndices q t.updates
  | .composition l r, env, i, j, s, q, he, ho, hst, h => by
    obtain ⟨hol, hor⟩ := Recipe.Ok.split (p := l.quotientClocks) (q := r.quotientClocks) ho
    obtain ⟨hl, hr, hd⟩ := Recipe.SteadyFor.split (l := l) (r := r) rfl
      (show _ = _ from List.flatMap_append) (fun c hc => List.mem_append.2 hc) hst.agree hst.nodup hst.fresh hst.quot
    obtain ⟨⟨sl, k⟩, h1, h⟩ := bind_ok h
    obtain ⟨⟨sr, k'⟩, h2, h⟩ := bind_ok h
    obtain ⟨s', h3, h⟩ := bind_ok h
    cases h
    have el : (Recipe.composition l r).clockIndices = l.clockIndices ++ r.clockIndices := List.flatMap_append
    have il := compile_steady (env := env.sub false) he hol hl h1
    have ir := compile_steady (env := env.sub true) he hor hr h2
    obtain ⟨_, rfl⟩ := Sys.newComposition_eq h3
    intro x a tr hx h
    rw [el]
    have stay : ∀ (C : List Nat) (z : LocTree F), ∀ t ∈ [Transition.withoutId z], Steady C q t.updates := by
      intro C z t ht
      rw [List.mem_singleton] at ht; subst ht; exact Steady.nil
    obtain ⟨x1, x2, hx1, hx2, hcx⟩ := hx
    unfold Sys.next at h
    split at h
    · cases h
    · rw [(compose_parts hcx).1, (compose_parts hcx).2.1] at h
      simp only [ok_bind] at h
      split at h
      · obtain ⟨left, h3, h⟩ := bind_ok h
        obtain ⟨right, h4, h⟩ := bind_ok h
        exact combinations_steady hd hl.fresh hr.fresh (.inr rfl) h (il _ _ _ hx1 h3) (ir _ _ _ hx2 h4)
      · split at h
        · obtain ⟨left, h3, h⟩ := bind_ok h
          exact combinations_steady hd hl.fresh hr.fresh (.inr rfl) h (il _ _ _ hx1 h3) (stay _ _)
        · split at h
          · obtain ⟨right, h4, h⟩ := bind_ok h
            exact combinations_steady hd hl.fresh hr.fresh (.inr rfl) h (stay _ _) (ir _ _ _ hx2 h4)
          · cases h
  | .conjunction l r, env, i, j, s, q, he, ho, hst, h => by
    obtain ⟨hol, hor⟩ := Recipe.Ok.split (p := l.quotientClocks) (q := r.quotientClocks) ho
    obtain ⟨hl, hr, hd⟩ := Recipe.SteadyFor.split (l := l) (r := r) rfl
      (show _ = _ from List.flatMap_append) (fun c hc => List.mem_append.2 hc) hst.agree hst.nodup hst.fresh hst.quot
    obtain ⟨⟨sl, k⟩, h1, h⟩ := bind_ok h
    obtain ⟨⟨sr, k'⟩, h2, h⟩ := bind_ok h
    obtain ⟨s', h3, h⟩ := bind_ok h
    cases h
    have el : (Recipe.conjunction l r).clockIndices = l.clockIndices ++ r.clockIndices := List.flatMap_append
    have il := compile_steady (env := env.sub false) he hol hl h1
    have ir := compile_steady (env := env.sub true) he hor hr h2
    obtain ⟨_, _, rfl⟩ := Sys.newConjunction_eq (newConjunction_unchecked h3)
    intro x a tr hx h
    rw [el]
    obtain ⟨x1, x2, hx1, hx2, hcx⟩ := hx
    unfold Sys.next at h
    split at h
    · cases h
    · rw [(compose_parts hcx).1, (compose_parts hcx).2.1] at h
      simp only [ok_bind] at h
      obtain ⟨left, h3, h⟩ := bind_ok h
      obtain ⟨right, h4, h⟩ := bind_ok h
      exact combinations_steady hd hl.fresh hr.fresh (.inl rfl) h (il _ _ _ hx1 h3) (ir _ _ _ hx2 h4)
  | .quotient l r clock, env, i, j, s, q, he, ho, hst, h => by
    obtain ⟨hol, hor, _, _⟩ := Recipe.Ok.quotient ho
    obtain ⟨hl, hr, hd⟩ := Recipe.SteadyFor.split (l := l) (r := r) rfl
      (show _ = _ from List.flatMap_append)
      (fun c hc => List.mem_append_left [clock] (List.mem_append.2 hc)) hst.agree hst.nodup hst.fresh hst.quot
    have hclock : clock = q := hst.quot clock (List.mem_append_right _ (List.mem_singleton.2 rfl))
    obtain ⟨⟨sl, k⟩, h1, h⟩ := bind_ok h
    obtain ⟨⟨sr, k'⟩, h2, h⟩ := bind_ok h
    obtain ⟨s', h3, h⟩ := bind_ok h
    cases h
    have el : (Recipe.quotient l r clock).clockIndices = l.clockIndices ++ r.clockIndices := List.flatMap_append
    have il := compile_steady (env := env.sub false) he hol hl h1
    have ir := compile_steady (env := env.sub true) he hor hr h2
    obtain ⟨_, rfl⟩ := Sys.newQuotient_eq (newQuotient_unchecked h3)
    intro x a tr hx h
    rw [el]
    subst hclock
    unfold Sys.next at h
    split at h
    · cases h
    · split at h
      · split at h
        · cases h; intro t ht
          rw [List.mem_singleton] at ht; subst ht; exact Steady.nil
        · cases h; simp
      · rename_i hni
        split at h
        · cases h; intro t ht
          rw [List.mem_singleton] at ht; subst ht; exact Steady.nil
        · rename_i hnu
          rcases hx with ⟨x1, x2, hx1, hx2, rfl⟩ | rfl | rfl
          · obtain ⟨lt, g1, h⟩ := bind_ok h
            obtain ⟨ls, g2, h⟩ := bind_ok h
            obtain ⟨tt, h3, h⟩ := bind_ok h
            obtain ⟨st, h4, h⟩ := bind_ok h
            cases g1; cases g2
            cases h
            have ht' : ∀ t ∈ tt, Steady l.clockIndices clock t.updates := by
              unfold Sys.ifAvailable at h3
              split at h3
              · exact il _ _ _ hx1 h3
              · cases h3; simp
            have hs' : ∀ t ∈ st, Steady r.clockIndices clock t.updates := by
              unfold Sys.ifAvailable at h4
              split at h4
              · exact ir _ _ _ hx2 h4
              · cases h4; simp
            intro t ht
            have ht := (List.mem_filter.1 ht).1
            simp only [List.mem_append] at ht
            rcases ht with ((((ht | ht) | ht) | ht) | ht) | ht
            · split at ht
              · obtain ⟨t1, h5, ht⟩ := List.mem_flatMap.1 ht
                obtain ⟨t2, h6, rfl⟩ := List.mem_map.1 ht
                exact (ht' t1 h5).append (hs' t2 h6) hd hl.fresh hr.fresh
              · cases ht
            · split at ht
              · obtain ⟨t2, h6, rfl⟩ := List.mem_map.1 ht
                exact (hs' t2 h6).mono fun _ => List.mem_append_right _
              · cases ht
            · split at ht <;> (rw [List.mem_singleton] at ht; subst ht; exact Steady.nil)
            · split at ht
              · obtain ⟨t2, h6, rfl⟩ := List.mem_map.1 ht
                exact Steady.reset
              · cases ht
            · split at ht
              · rw [List.mem_singleton] at ht; subst ht
                exact Steady.reset
              · cases ht
            · split at ht
              · obtain ⟨t1, h6, rfl⟩ := List.mem_map.1 ht
                exact (ht' t1 h6).mono fun _ => List.mem_append_left _
              · cases ht
          · exact absurd rfl hnu
          · exact absurd rfl hni
  | .component c n, env, i, j, s, q, he, ho, hst, h => by
    obtain ⟨x, h1, h⟩ := bind_ok h
    cases h
    have hc := ho.1 c (List.mem_singleton.2 rfl)
    have ha := hst.agree c (List.mem_singleton.2 rfl)
    intro l a tr hl h
    have e1 : (Recipe.component c n).clockIndices = c.decls.clocks.map (·.2) := by
      simp [Recipe.clockIndices, Recipe.components]
    rw [e1]
    unfold CompComp.compile at h1
    obtain ⟨loc, hloc, _, es, hes, hf⟩ := compile_next_exact (he i) h1 hl
    unfold Sys.next CompComp.next at h
    split at h
    · cases h
    · split at h
      · cases h; intro t ht
        rw [List.mem_singleton] at ht; subst ht; exact Steady.nil
      · split at h
        · cases h; intro t ht
          rw [List.mem_singleton] at ht; subst ht; exact Steady.nil
        · rw [hes] at h
          cases h
          intro t ht
          obtain ⟨y, hy, rfl⟩ := List.mem_map.1 ht
          obtain ⟨e, he', _, hfe⟩ := forall2_mem_right hf y (List.mem_filter.1 hy).1
          have hec := (List.mem_filter.1 he').1
          refine ⟨(fromEdge_updates hc hec hfe).2 ha, fun u hu => .inl ?_⟩
          obtain ⟨u0, _, _, huc⟩ := compileUpdates_spec (fromEdge_mapM hfe) u hu
          exact List.mem_map.2 ⟨_, lookup_mem huc, rfl⟩

theorem Recipe.compile_calm {r : Recipe} {env : CompileEnv F} {i j : Nat} {s : Sys F} {q : Nat} (he : env.Perm)
    (ho : r.Ok (dim F)) (hst : r.SteadyFor q) (h : r.compile env i = .ok (s, j)) : s.Calm := by
  intro l a trans hl ha hn t ht
  exact ⟨((Recipe.compile_accepted he ho h).good.next_ok hl ha hn t ht).2.upd,
    (Recipe.compile_steady he ho hst h l a trans hl hn t ht).1⟩

/-! ## Recipes -/

/-- The recipe with its components and the clocks of its quotients changed. -/
def Recipe.reshape (f : Component → Component) (h : Nat → Nat) : Recipe → Recipe
  | composition l r => .composition (l.reshape f h) (r.reshape f h)
  | conjunction l r => .conjunction (l.reshape f h) (r.reshape f h)
  | quotient l r q => .quotient (l.reshape f h) (r.reshape f h) (h q)
  | component c i => .component (f c) i

theorem Recipe.mapComponents_eq (f : Component → Component) : ∀ r : Recipe, r.mapComponents f = r.reshape f id
  | .composition l r | .conjunction l r | .quotient l r _ => by
    unfold Recipe.mapComponents Recipe.reshape
    rw [mapComponents_eq f l, mapComponents_eq f r]
    try rfl
  | .component c i => rfl

theorem Recipe.changeQuotient_eq (k : Nat) : ∀ r : Recipe, r.changeQuotient k = r.reshape id fun _ => k
  | .composition l r | .conjunction l r | .quotient l r _ => by
    unfold Recipe.changeQuotient Recipe.reshape
    rw [changeQuotient_eq k l, changeQuotient_eq k r]
  | .component c i => rfl

theorem Recipe.reshape_reshape (f f' : Component → Component) (h h' : Nat → Nat) : ∀ r : Recipe,
    (r.reshape f h).reshape f' h' = r.reshape (f' ∘ f) (h' ∘ h)
  | .composition l r | .conjunction l r | .quotient l r _ => by
    simp only [Recipe.reshape]
    rw [reshape_reshape f f' h h' l, reshape_reshape f f' h h' r]
    try rfl
  | .component c i => rfl

theorem Recipe.reshape_components (f : Component → Component) (h : Nat → Nat) : ∀ r : Recipe,
    (r.reshape f h).components = r.components.map f
  | .composition l r | .conjunction l r | .quotient l r _ => by
    simp only [Recipe.reshape, Recipe.components]
    rw [reshape_components f h l, reshape_components f h r, List.map_append]
  | .component c i => rfl

theorem Recipe.reshape_quotientClocks (f : Component → Component) (h : Nat → Nat) : ∀ r : Recipe,
    (r.reshape f h).quotientClocks = r.quotientClocks.map h
  | .composition l r | .conjunction l r => by
    simp only [Recipe.reshape, Recipe.quotientClocks]
    rw [reshape_quotientClocks f h l, reshape_quotientClocks f h r, List.map_append]
  | .quotient l r q => by
    simp only [Recipe.reshape, Recipe.quotientClocks]
    rw [reshape_quotientClocks f h l, reshape_quotientClocks f h r, List.map_append, List.map_append]
    rfl
  | .component c i => rfl

/-- The clock map fits the reduction of the recipe. -/
structure Recipe.Fit (r : Recipe) (n : Nat) (rem : List Nat) (f h : Nat → Nat) (ρ : ClockMap) : Prop where
  ok : r.Ok n
  comps : ∀ c ∈ r.components, c.Reducible n ∧ ρ.On rem f c ∧ c.HarmlessFor rem
  quots : ∀ q ∈ r.quotientClocks, ρ q = some (h q)
  calm : r.quotientClocks ≠ [] → ρ.Inj ∧ ∃ q, r.SteadyFor q

theorem Recipe.Fit.split {l r : Recipe} {n : Nat} {rem : List Nat} {f h : Nat → Nat} {ρ : ClockMap} {x : Recipe}
    (hcs : x.components = l.components ++ r.components)
    (hks : ∀ c, c ∈ l.quotientClocks ∨ c ∈ r.quotientClocks → c ∈ x.quotientClocks)
    (hx : x.Fit n rem f h ρ) : l.Fit n rem f h ρ ∧ r.Fit n rem f h ρ := by
  have key : x.quotientClocks ≠ [] → ρ.Inj ∧ ∃ q, l.SteadyFor q ∧ r.SteadyFor q := by
    intro hne
    obtain ⟨h1, q, h2⟩ := hx.calm hne
    obtain ⟨a, b, _⟩ := Recipe.SteadyFor.split (l := l) (r := r) hcs
      (by unfold Recipe.clockIndices; rw [hcs]; exact List.flatMap_append) hks h2.agree h2.nodup h2.fresh h2.quot
    exact ⟨h1, q, a, b⟩
  have hne : ∀ {y : Recipe}, (∀ c ∈ y.quotientClocks, c ∈ x.quotientClocks) → y.quotientClocks ≠ [] →
      x.quotientClocks ≠ [] := by
    intro y hy hn e
    obtain ⟨c, hc⟩ := List.exists_mem_of_ne_nil _ hn
    have := hy c hc
    rw [e] at this
    cases this
  refine ⟨⟨⟨fun c hc => hx.ok.1 c (by rw [hcs]; exact List.mem_append_left _ hc), fun q hq => hx.ok.2 q (hks q (.inl hq))⟩,
    fun c hc => hx.comps c (by rw [hcs]; exact List.mem_append_left _ hc), fun q hq => hx.quots q (hks q (.inl hq)),
    fun hn => ?_⟩, ⟨⟨fun c hc => hx.ok.1 c (by rw [hcs]; exact List.mem_append_right _ hc),
    fun q hq => hx.ok.2 q (hks q (.inr hq))⟩,
    fun c hc => hx.comps c (by rw [hcs]; exact List.mem_append_right _ hc), fun q hq => hx.quots q (hks q (.inr hq)),
    fun hn => ?_⟩⟩
  · obtain ⟨h1, q, h2, _⟩ := key (hne (fun c hc => hks c (.inl hc)) hn)
    exact ⟨h1, q, h2⟩
  · obtain ⟨h1, q, _, h2⟩ := key (hne (fun c hc => hks c (.inr hc)) hn)
    exact ⟨h1, q, h2⟩

/-- A recipe and its reduction are compiled to alike systems. -/
theorem Recipe.compile_alike {rem : List Nat} {f h : Nat → Nat} {ρ : ClockMap} (hf : ρ.Fits (dim F) (dim G)) :
    ∀ {r : Recipe} {env : CompileEnv F} {env' : CompileEnv G} {i j i' j' : Nat} {s : Sys F} {s' : Sys G}, env.Perm →
      env'.Perm → r.Fit (dim F) rem f h ρ → r.compile env i = .ok (s, j) →
      (r.reshape (Component.reduced rem f) h).compile env' i' = .ok (s', j') → Sys.Alike ρ s s'
  | .composition l r, env, env', i, j, i', j', s, s', he, he', hr, hs, hs' => by
    obtain ⟨f1, f2⟩ := Recipe.Fit.split (l := l) (r := r) (x := .composition l r) rfl (fun c hc => List.mem_append.2 hc) hr
    obtain ⟨⟨sl, k⟩, h1, hs⟩ := bind_ok hs
    obtain ⟨⟨sr, k'⟩, h2, hs⟩ := bind_ok hs
    obtain ⟨s0, h3, hs⟩ := bind_ok hs
    cases hs
    obtain ⟨⟨sl', k1⟩, h1', hs'⟩ := bind_ok hs'
    obtain ⟨⟨sr', k1'⟩, h2', hs'⟩ := bind_ok hs'
    obtain ⟨s0', h3', hs'⟩ := bind_ok hs'
    cases hs'
    have a1 := compile_alike hf (env := env.sub false) (env' := env'.sub false) he he' f1 h1 h1'
    have a2 := compile_alike hf (env := env.sub true) (env' := env'.sub true) he he' f2 h2 h2'
    obtain ⟨_, rfl⟩ := Sys.newComposition_eq h3
    obtain ⟨_, rfl⟩ := Sys.newComposition_eq h3'
    refine ⟨a1, a2, ?_⟩
    rw [a1.actions.1, a1.actions.2, a2.actions.1, a2.actions.2]
    exact ⟨rfl, rfl, rfl, rfl, rfl⟩
  | .conjunction l r, env, env', i, j, i', j', s, s', he, he', hr, hs, hs' => by
    obtain ⟨f1, f2⟩ := Recipe.Fit.split (l := l) (r := r) (x := .conjunction l r) rfl (fun c hc => List.mem_append.2 hc) hr
    obtain ⟨⟨sl, k⟩, h1, hs⟩ := bind_ok hs
    obtain ⟨⟨sr, k'⟩, h2, hs⟩ := bind_ok hs
    obtain ⟨s0, h3, hs⟩ := bind_ok hs
    cases hs
    obtain ⟨⟨sl', k1⟩, h1', hs'⟩ := bind_ok hs'
    obtain ⟨⟨sr', k1'⟩, h2', hs'⟩ := bind_ok hs'
    obtain ⟨s0', h3', hs'⟩ := bind_ok hs'
    cases hs'
    have a1 := compile_alike hf (env := env.sub false) (env' := env'.sub false) he he' f1 h1 h1'
    have a2 := compile_alike hf (env := env.sub true) (env' := env'.sub true) he he' f2 h2 h2'
    obtain ⟨_, _, rfl⟩ := Sys.newConjunction_eq (newConjunction_unchecked h3)
    obtain ⟨_, _, rfl⟩ := Sys.newConjunction_eq (newConjunction_unchecked h3')
    refine ⟨a1, a2, ?_⟩
    rw [a1.actions.1, a1.actions.2, a2.actions.1, a2.actions.2]
    exact ⟨rfl, rfl⟩
  | .quotient l r q, env, env', i, j, i', j', s, s', he, he', hr, hs, hs' => by
    obtain ⟨f1, f2⟩ := Recipe.Fit.split (l := l) (r := r) (x := .quotient l r q) rfl
      (fun c hc => List.mem_append_left [q] (List.mem_append.2 hc)) hr
    have hmem : q ∈ (Recipe.quotient l r q).quotientClocks := List.mem_append_right _ (List.mem_singleton.2 rfl)
    obtain ⟨hinj, q0, hst⟩ := hr.calm (List.ne_nil_of_mem hmem)
    obtain ⟨st1, st2, _⟩ := Recipe.SteadyFor.split (l := l) (r := r) rfl
      (show _ = _ from List.flatMap_append)
      (fun c hc => List.mem_append_left [q] (List.mem_append.2 hc)) hst.agree hst.nodup hst.fresh hst.quot
    obtain ⟨⟨sl, k⟩, h1, hs⟩ := bind_ok hs
    obtain ⟨⟨sr, k'⟩, h2, hs⟩ := bind_ok hs
    obtain ⟨s0, h3, hs⟩ := bind_ok hs
    cases hs
    obtain ⟨⟨sl', k1⟩, h1', hs'⟩ := bind_ok hs'
    obtain ⟨⟨sr', k1'⟩, h2', hs'⟩ := bind_ok hs'
    obtain ⟨s0', h3', hs'⟩ := bind_ok hs'
    cases hs'
    have a1 := compile_alike hf (env := env.sub false) (env' := env'.sub false) he he' f1 h1 h1'
    have a2 := compile_alike hf (env := env.sub true) (env' := env'.sub true) he he' f2 h2 h2'
    have c1 := Recipe.compile_calm (env := env.sub false) he f1.ok st1 h1
    have c2 := Recipe.compile_calm (env := env.sub true) he f2.ok st2 h2
    obtain ⟨_, rfl⟩ := Sys.newQuotient_eq (newQuotient_unchecked h3)
    obtain ⟨_, rfl⟩ := Sys.newQuotient_eq (newQuotient_unchecked h3')
    refine ⟨a1, a2, ?_⟩
    rw [a1.actions.1, a1.actions.2, a2.actions.1, a2.actions.2]
    exact ⟨rfl, rfl, rfl, hr.quots q hmem, hinj, c1, c2⟩
  | .component c n, env, env', i, j, i', j', s, s', he, he', hr, hs, hs' => by
    obtain ⟨x, h1, hs⟩ := bind_ok hs
    cases hs
    obtain ⟨x', h1', hs'⟩ := bind_ok hs'
    cases hs'
    obtain ⟨hc, hρ, hh⟩ := hr.comps c (List.mem_singleton.2 rfl)
    exact compAlike_reduced hc hρ hf hh (he i) (he' i') h1 h1'

/-! ## Alike systems behave alike -/

theorem Sys.Alike.bisim {ρ : ClockMap} {s : Sys F} {s' : Sys G} (hs : s.Accepted) (h : Sys.Alike ρ s s')
    (hf : ρ.Fits (dim F) (dim G))
    (hco : ∀ l a ts t, s.Linked l → s.hasAction a = true → s.next l a = .ok ts → t ∈ ts → ρ.Coherent t.updates) :
    s.ts.BisimUpTo s'.ts ρ.Agree fun l m => s.Linked l ∧ LocAlike ρ l m := by
  refine ⟨ClockMap.Agree.zero, fun v w d ha => ha.delay hf d, fun l m hlm v w hv hw ha => hlm.2.inv hv hw ha, ?_, ?_⟩
  · rintro l m ⟨hl, hlm⟩ v w a l' v' hv hw ha ⟨hact, ts, hn, t, ht, hct, rfl, rfl⟩
    obtain ⟨ts', hn', hts⟩ := Sys.Alike.next hf h (hl.isLoc hs) hlm hn
    obtain ⟨t', ht', htt⟩ := forall2_mem_left hts t ht
    have hc := hco l a ts t hl hact hn ht
    have hup := (hs.good.next_ok (hl.isLoc hs) hact hn t ht).2.upd
    refine ⟨t'.target, runUpdates t'.updates w, ⟨(h.hasAction a).trans hact, ts', hn', t', ht', ?_, rfl, rfl⟩,
      ⟨.step hl hact hn ht, htt.target⟩, ?_⟩
    · exact (htt.canTake hf hup hc hv hw ha).1 hct
    · rw [htt.updates]
      exact ha.updates hc
  · rintro l m ⟨hl, hlm⟩ v w a l' v' hv hw ha ⟨hact, ts', hn', t', ht', hct, rfl, rfl⟩
    have hact0 : s.hasAction a = true := (h.hasAction a).symm.trans hact
    obtain ⟨ts, hn, _⟩ := hs.good.next l a (hl.isLoc hs) hact0
    obtain ⟨ts1, hn1, hts⟩ := Sys.Alike.next hf h (hl.isLoc hs) hlm hn
    have : ts1 = ts' := by
      have hn' : s'.next m a = .ok ts' := hn'
      rw [hn1] at hn'
      cases hn'
      rfl
    subst this
    obtain ⟨t, ht, htt⟩ := forall2_mem_right hts t' ht'
    have hc := hco l a ts t hl hact0 hn ht
    have hup := (hs.good.next_ok (hl.isLoc hs) hact0 hn t ht).2.upd
    refine ⟨t.target, runUpdates t.updates v, ⟨hact0, ts, hn, t, ht, ?_, rfl, rfl⟩,
      ⟨.step hl hact0 hn ht, htt.target⟩, ?_⟩
    · exact (htt.canTake hf hup hc hv hw ha).2 hct
    · rw [htt.updates]
      exact ha.updates hc

end Reveaal
