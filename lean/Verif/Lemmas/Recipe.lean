import Verif.Model.ClockReduction
import Verif.Spec.Recipe
import Verif.Lemmas.SysGood

/-! # Compiling recipes -/

namespace Reveaal
open ZoneLib
variable {F : Type} [ZoneLib F]

theorem newConjunction_unchecked {ord : Orders} {fuel : Nat} {l r s : Sys F}
    (h : Sys.newConjunction ord fuel l r = .ok s) : Sys.newConjunctionUnchecked l r = .ok s := by
  unfold Sys.newConjunction at h
  obtain ⟨s', h1, h⟩ := bind_ok h
  obtain ⟨o, _, h⟩ := bind_ok h
  cases o with
  | some f => cases h
  | none => cases h; exact h1

theorem newQuotient_unchecked {ord : List Bool → Orders} {fuel : Nat} {t s q : Sys F} {clock : Nat}
    (h : Sys.newQuotient ord fuel t s clock = .ok q) : Sys.newQuotientUnchecked t s clock = .ok q := by
  unfold Sys.newQuotient at h
  obtain ⟨s', h1, h⟩ := bind_ok h
  obtain ⟨o, _, h⟩ := bind_ok h
  cases o with
  | some f => cases h
  | none =>
    obtain ⟨o, _, h⟩ := bind_ok h
    cases o with
    | some f => cases h
    | none => cases h; exact h1

/-- The hash maps of locations are iterated in some order. -/
def CompileEnv.Perm (env : CompileEnv F) : Prop := ∀ i l, (env.locOrder i l).Perm l

/-- A recipe fit for compilation: components as the readers produce them, and clocks of quotients within the
dimension. -/
def Recipe.Ok (n : Nat) (r : Recipe) : Prop :=
  (∀ c ∈ r.components, c.Ok n) ∧ ∀ q ∈ r.quotientClocks, 0 < q ∧ q < n

theorem Recipe.Ok.split {n : Nat} {a b : List Component} {p q : List Nat}
    (h : (∀ c ∈ a ++ b, c.Ok n) ∧ ∀ x ∈ p ++ q, 0 < x ∧ x < n) :
    ((∀ c ∈ a, c.Ok n) ∧ ∀ x ∈ p, 0 < x ∧ x < n) ∧ ((∀ c ∈ b, c.Ok n) ∧ ∀ x ∈ q, 0 < x ∧ x < n) :=
  ⟨⟨fun c hc => h.1 c (List.mem_append_left _ hc), fun x hx => h.2 x (List.mem_append_left _ hx)⟩,
    fun c hc => h.1 c (List.mem_append_right _ hc), fun x hx => h.2 x (List.mem_append_right _ hx)⟩

theorem Recipe.Ok.quotient {n : Nat} {l r : Recipe} {q : Nat} (h : (Recipe.quotient l r q).Ok n) :
    l.Ok n ∧ r.Ok n ∧ 0 < q ∧ q < n := by
  refine ⟨⟨fun c hc => h.1 c (List.mem_append_left _ hc), fun x hx => h.2 x ?_⟩,
    ⟨fun c hc => h.1 c (List.mem_append_right _ hc), fun x hx => h.2 x ?_⟩, h.2 q ?_⟩
  · exact List.mem_append_left _ (List.mem_append_left _ hx)
  · exact List.mem_append_left _ (List.mem_append_right _ hx)
  · exact List.mem_append_right _ (List.mem_singleton.2 rfl)

/-- What is compiled from a recipe is an accepted system. -/
theorem Recipe.compile_accepted : ∀ {r : Recipe} {env : CompileEnv F} {i j : Nat} {s : Sys F}, env.Perm →
    r.Ok (dim F) → r.compile env i = .ok (s, j) → s.Accepted
  | .composition l r, env, i, j, s, he, ho, h => by
    obtain ⟨hl, hr⟩ := Recipe.Ok.split (p := l.quotientClocks) (q := r.quotientClocks) ho
    obtain ⟨⟨sl, k⟩, h1, h⟩ := bind_ok h
    obtain ⟨⟨sr, k'⟩, h2, h⟩ := bind_ok h
    obtain ⟨s', h3, h⟩ := bind_ok h
    cases h
    exact .composition (compile_accepted (env := env.sub false) he hl h1)
      (compile_accepted (env := env.sub true) he hr h2) h3
  | .conjunction l r, env, i, j, s, he, ho, h => by
    obtain ⟨hl, hr⟩ := Recipe.Ok.split (p := l.quotientClocks) (q := r.quotientClocks) ho
    obtain ⟨⟨sl, k⟩, h1, h⟩ := bind_ok h
    obtain ⟨⟨sr, k'⟩, h2, h⟩ := bind_ok h
    obtain ⟨s', h3, h⟩ := bind_ok h
    cases h
    exact .conjunction (compile_accepted (env := env.sub false) he hl h1)
      (compile_accepted (env := env.sub true) he hr h2) (newConjunction_unchecked h3)
  | .quotient l r q, env, i, j, s, he, ho, h => by
    obtain ⟨hl, hr, h0, hn⟩ := Recipe.Ok.quotient ho
    obtain ⟨⟨sl, k⟩, h1, h⟩ := bind_ok h
    obtain ⟨⟨sr, k'⟩, h2, h⟩ := bind_ok h
    obtain ⟨s', h3, h⟩ := bind_ok h
    cases h
    exact .quotient (compile_accepted (env := env.sub false) he hl h1)
      (compile_accepted (env := env.sub true) he hr h2) h0 hn (newQuotient_unchecked h3)
  | .component c id, env, i, j, s, he, ho, h => by
    obtain ⟨x, h1, h⟩ := bind_ok h
    cases h
    exact .comp (ho.1 c (List.mem_singleton.2 rfl)) (he i) h1

end Reveaal
