import Verif.Lemmas.AlikeTransfer
import Verif.Props.C60
import Verif.Model.Execute

/-!
# The recipes a query is answered with
-/

namespace Reveaal
open ZoneLib
variable {F G : Type} [ZoneLib F] [ZoneLib G]

/-- All clocks of the system of a recipe. -/
def Recipe.UsesClock (r : Recipe) (i : Nat) : Prop := i ∈ r.clockIndices ∨ i ∈ r.quotientClocks

/-- `r'` is `r` with some clocks removed and the others renumbered by `ρ`. -/
structure Recipe.ReducedTo (r r' : Recipe) (n m : Nat) (ρ : ClockMap) : Prop where
  form : ∃ rem g h q', r' = r.reshape (Component.reduced rem g) h ∧ r.Reduces n m rem g h q' ∧ ρ = r.clockMap rem g q'
  inj : ρ.Inj
  steady : ∃ q, r.SteadyFor q

theorem Component.reduced_nil : Component.reduced [] id = id := by
  funext c
  have h1 : c.without [] = c := by
    have : c.decls.namesOf [] = [] := by
      unfold Decls.namesOf
      simp
    unfold Component.without
    rw [this, Component.strip_nil]
  unfold Component.reduced Component.withClocks
  rw [h1]
  simp

theorem Recipe.reshape_id : ∀ r : Recipe, r.reshape id id = r
  | .composition l r | .conjunction l r | .quotient l r _ => by
    unfold Recipe.reshape
    rw [reshape_id l, reshape_id r]
    try rfl
  | .component c i => rfl

namespace Recipe.ReducedTo
variable {r r' : Recipe} {n m : Nat} {ρ : ClockMap}

/-- A recipe that is left as it is. -/
theorem refl {q : Option Nat} (hok : r.Ok n) (hc : ∀ c ∈ r.components, c.Reducible n ∧ c.UpdatesAgree)
    (hnd : r.clockIndices.Nodup) (hfresh : ∀ i, q = some i → i ∉ r.clockIndices) (hq : ∀ i ∈ r.quotientClocks, q = some i) :
    ∃ ρ, r.ReducedTo r n n ρ ∧ ∀ i k, ρ i = some k → k = i ∧ r.UsesClock i := by
  have key : ∀ i k, r.clockMap [] id (q.getD 0) i = some k → k = i ∧ r.UsesClock i := by
    intro i k hk
    unfold Recipe.clockMap at hk
    rw [if_neg (by simp)] at hk
    split at hk
    · rename_i h; cases hk; exact ⟨rfl, .inl h⟩
    · split at hk
      · rename_i h
        have := hq i h
        subst this
        cases hk
        exact ⟨rfl, .inr h⟩
      · cases hk
  refine ⟨_, ⟨⟨[], id, id, q.getD 0, ?_, ⟨hok, fun c h => ⟨(hc c h).1, fun _ i hi => by cases hi⟩, fun i hi _ =>
    clockIndices_lt hok hi, fun i hi => ?_⟩, rfl⟩, fun x y k hx hy => ?_, ?_⟩, key⟩
  · rw [Component.reduced_nil, Recipe.reshape_id]
  · have := hq i hi
    subst this
    exact ⟨by simp, hfresh i rfl, rfl, hok.2 i hi⟩
  · exact (key x k hx).1.symm.trans (key y k hy).1
  · by_cases h : r.quotientClocks = []
    · refine ⟨0, fun c hm => (hc c hm).2, hnd, fun hm => ?_, fun x hx => by rw [h] at hx; cases hx⟩
      exact absurd (clockIndices_lt hok hm).1 (by simp)
    · obtain ⟨i, hi⟩ := List.exists_mem_of_ne_nil _ h
      have e := hq i hi
      subst e
      exact ⟨i, fun c hm => (hc c hm).2, hnd, hfresh i rfl, fun x hx => (Option.some.inj (hq x hx)).symm⟩

theorem ok (h : r.ReducedTo r' n m ρ) : r.Ok n := by
  obtain ⟨_, _, _, _, _, h, _⟩ := h.form
  exact h.ok

theorem ok' (h : r.ReducedTo r' n (dim G) ρ) : r'.Ok (dim G) := by
  obtain ⟨_, _, _, _, rfl, h, _⟩ := h.form
  exact h.reduced_ok

theorem fits (h : r.ReducedTo r' n m ρ) : ρ.Fits n m := by
  obtain ⟨_, _, _, _, _, h', rfl⟩ := h.form
  exact h'.fits

section
variable (h : r.ReducedTo r' (dim F) (dim G) ρ)
include h

theorem alike {env : CompileEnv F} {env' : CompileEnv G} (he : env.Perm)
    (he' : env'.Perm) {i j i' j' : Nat} {s : Sys F} {s' : Sys G} (hs : r.compile env i = .ok (s, j))
    (hs' : r'.compile env' i' = .ok (s', j')) : Sys.Alike ρ s s' := by
  obtain ⟨rem, g, k, q', rfl, h', rfl⟩ := h.form
  exact Recipe.compile_alike h'.fits he he' ⟨h'.ok, fun c hc => ⟨(h'.comps c hc).1, clockMap_on hc, (h'.comps c hc).2⟩,
    fun q hq => h'.quot hq, fun _ => ⟨h.inj, h.steady⟩⟩ hs hs'

/-- The clocks of the new system. -/
theorem clocks {env' : CompileEnv G} {i' j' : Nat} {s' : Sys G} (hs' : r'.compile env' i' = .ok (s', j')) {x : Nat}
    (hx : x ∈ s'.clocks) : ∃ i, r.UsesClock i ∧ ρ i = some x := by
  obtain ⟨rem, g, k, q', rfl, h', rfl⟩ := h.form
  rcases Recipe.compile_clocks hs' x hx with hm | hm
  · obtain ⟨c', hc', hm⟩ := List.mem_flatMap.1 hm
    rw [Recipe.reshape_components] at hc'
    obtain ⟨c, hc, rfl⟩ := List.mem_map.1 hc'
    obtain ⟨p, hp, rfl⟩ := List.mem_map.1 hm
    obtain ⟨x, hx', rfl⟩ := List.mem_map.1 hp
    rw [without_clocks (h'.comps c hc).1.names] at hx'
    obtain ⟨hx, hrem⟩ := List.mem_filter.1 hx'
    have hi : x.2 ∈ r.clockIndices := List.mem_flatMap.2 ⟨c, hc, List.mem_map.2 ⟨x, hx, rfl⟩⟩
    refine ⟨x.2, .inl hi, ?_⟩
    unfold Recipe.clockMap
    rw [if_neg (by simpa using hrem), if_pos hi]
  · rw [Recipe.reshape_quotientClocks] at hm
    obtain ⟨q, hq, rfl⟩ := List.mem_map.1 hm
    exact ⟨q, .inr hq, h'.quot hq⟩

theorem updatesAgree {env : CompileEnv F} (he : env.Perm) {i j : Nat} {s : Sys F} (hs : r.compile env i = .ok (s, j)) :
    s.ts.UpdatesAgree := by
  obtain ⟨q, hq⟩ := h.steady
  intro l v a ts hr ha hn t ht
  have hok := (Recipe.compile_accepted he h.ok hs).good
  exact (Recipe.compile_calm he h.ok hq hs l a ts (hok.reach hr).1 ha hn t ht).2

end
end Recipe.ReducedTo

/-! ## Two recipes -/

/-- No clock of the one system becomes a clock of the other. -/
def Separate (l r : Recipe) (ρ σ : ClockMap) : Prop :=
  ∀ i j k, l.UsesClock i → r.UsesClock j → ρ i = some k → σ j = some k → False

variable {Z : Nat → Type} [∀ d, ZoneLib (Z d)]

/-- The clocks the analysis of a system reports. -/
def QueryEnv.Reports (X : QueryEnv Z) (d : Nat) (env : CompileEnv (Z d)) (ord : HashOrder) (r : Recipe)
    (ins : List ClockInstr) : Prop :=
  ∃ s j, r.compile env 0 = .ok (s, j) ∧ findRedundantClocks ord s.ts (X.acts d s) env.fuel = .ok ins

theorem QueryEnv.reduceTwo_form (hZ : ∀ d, dim (Z d) = d + 1) (X : QueryEnv Z) {l r l' r' : Recipe} {d d' : Nat}
    {q : Option Nat} (he1 : (X.analysed d).Perm) (he2 : (X.analysed' d).Perm)
    (hnum : (l.clockIndices ++ r.clockIndices ++ q.toList).Perm (List.range' 1 d))
    (horder : ∀ x ∈ l.clockIndices, ∀ y ∈ r.clockIndices, x < y) (hmax : d + 1 ≤ 4294967295)
    (hl : ∀ c ∈ l.components, c.Reducible (d + 1) ∧ c.UpdatesAgree)
    (hr : ∀ c ∈ r.components, c.Reducible (d + 1) ∧ c.UpdatesAgree)
    (hql : ∀ i ∈ l.quotientClocks, q = some i) (hqr : ∀ i ∈ r.quotientClocks, q = some i)
    (hone : l.quotientClocks = [] ∨ r.quotientClocks = [])
    (hharm : X.reduce = true → ∀ cl, X.Reports d (X.analysed d) X.order l cl → ∀ i, .remove i ∈ cl →
      ∀ c ∈ l.components, c.HarmlessFor [i])
    (hharm' : X.reduce = true → ∀ cr, X.Reports d (X.analysed' d) X.order' r cr → ∀ i, .remove i ∈ cr →
      ∀ c ∈ r.components, c.HarmlessFor [i])
    (hmerge : X.reduce = true → ∀ cl cr, X.Reports d (X.analysed d) X.order l cl →
      X.Reports d (X.analysed' d) X.order' r cr → ∀ c cs cs', .replace c cs ∈ cl → .replace c cs' ∈ cr → q = some c)
    (h : X.reduceTwo l r d q = .ok (l', r', d')) :
    ∃ ρ σ, l.ReducedTo l' (d + 1) (d' + 1) ρ ∧ r.ReducedTo r' (d + 1) (d' + 1) σ ∧ Separate l r ρ σ := by
  obtain ⟨hnd, hfresh, hmem, hlen⟩ := numbering hnum
  have hq : ∀ i, q = some i → 0 < i ∧ i < d + 1 := fun i hi => (hmem i).1 (.inr hi)
  have okl : l.Ok (d + 1) := ⟨fun c hc => (hl c hc).1.clear.ok, fun i hi => hq i (hql i hi)⟩
  have okr : r.Ok (d + 1) := ⟨fun c hc => (hr c hc).1.clear.ok, fun i hi => hq i (hqr i hi)⟩
  have hndl := (List.nodup_append'.1 hnd).1
  have hndr := (List.nodup_append'.1 hnd).2.1
  have hsep : ∀ i j, l.UsesClock i → r.UsesClock j → i ≠ j := by
    rintro i j (hi | hi) (hj | hj) rfl
    · exact absurd (horder i hi i hj) (by simp)
    · exact hfresh i (hqr i hj) (List.mem_append_left _ hi)
    · exact hfresh i (hql i hi) (List.mem_append_right _ hj)
    · rcases hone with e | e
      · rw [e] at hi; cases hi
      · rw [e] at hj; cases hj
  have same : l' = l ∧ r' = r ∧ d' = d → ∃ ρ σ, l.ReducedTo l' (d + 1) (d' + 1) ρ ∧
      r.ReducedTo r' (d + 1) (d' + 1) σ ∧ Separate l r ρ σ := by
    rintro ⟨rfl, rfl, rfl⟩
    obtain ⟨ρ, h1, h2⟩ := Recipe.ReducedTo.refl okl hl hndl (fun i hi hm => hfresh i hi (List.mem_append_left _ hm)) hql
    obtain ⟨σ, h3, h4⟩ := Recipe.ReducedTo.refl okr hr hndr (fun i hi hm => hfresh i hi (List.mem_append_right _ hm)) hqr
    refine ⟨ρ, σ, h1, h3, fun i j k hi hj hk hk' => hsep i j hi hj ?_⟩
    exact (h2 i k hk).1.symm.trans (h4 j k hk').1
  unfold QueryEnv.reduceTwo at h
  split at h
  · rename_i hred
    unfold clockReduce at h
    split at h
    · rw [ok_bind] at h
      cases h
      exact same ⟨rfl, rfl, rfl⟩
    · dsimp only at h
      obtain ⟨⟨l1, r1, d1⟩, h1, h⟩ := bind_ok h
      obtain ⟨⟨l2, r2, d2⟩, h2, h1⟩ := bind_ok h1
      cases h1
      cases h
      have h3 := h2
      unfold clockReduceTwo at h3
      obtain ⟨⟨s, j⟩, hs, h3⟩ := bind_ok h3
      obtain ⟨cl, hcl, h3⟩ := bind_ok h3
      obtain ⟨⟨t, k⟩, ht, h3⟩ := bind_ok h3
      obtain ⟨cr, hcr, h3⟩ := bind_ok h3
      clear h3
      obtain ⟨rl, rr, f, d3, e, hd, a1, a2, b1, b2, c1, c2, e1, e2⟩ := clockReduceTwo_form (X.analysed d) (X.analysed' d) he1 he2
        X.order X.order' (X.acts d) l r d q hnum horder (hZ d) (by rw [hZ]; exact hmax) s t j k hs ht cl cr hcl hcr
        ⟨fun c hc => by rw [hZ]; exact (hl c hc).1, fun _ c hc => (hl c hc).2, hql, hharm hred cl ⟨s, j, hs, hcl⟩⟩
        ⟨fun c hc => by rw [hZ]; exact (hr c hc).1, fun _ c hc => (hr c hc).2, hqr, hharm' hred cr ⟨t, k, ht, hcr⟩⟩
        (hmerge hred cl cr ⟨s, j, hs, hcl⟩ ⟨t, k, ht, hcr⟩)
      rw [h2] at e
      cases e
      rw [hZ] at a1 a2
      have st : ∀ {r : Recipe}, r.Ok (d + 1) → (∀ c ∈ r.components, c.Reducible (d + 1) ∧ c.UpdatesAgree) →
          r.clockIndices.Nodup → (r.quotientClocks ≠ [] → ∃ q, r.SteadyFor q) → ∃ q, r.SteadyFor q := by
        intro r hok hc hn hst
        by_cases h : r.quotientClocks = []
        · refine ⟨0, fun c hm => (hc c hm).2, hn, fun hm => ?_, fun x hx => by rw [h] at hx; cases hx⟩
          exact absurd (clockIndices_lt hok hm).1 (by simp)
        · exact hst h
      refine ⟨_, _, ⟨⟨_, _, _, _, rfl, a1, rfl⟩, b1, st okl hl hndl c1⟩, ⟨⟨_, _, _, _, rfl, a2, rfl⟩, b2, st okr hr hndr c2⟩, ?_⟩
      have cm : ∀ {r : Recipe} {rem : List Nat} {q' i k : Nat}, r.clockMap rem f q' i = some k →
          (i ∉ rem ∧ i ∈ r.clockIndices ∧ k = f i) ∨ (i ∈ r.quotientClocks ∧ k = q') := by
        intro r rem q' i k hk
        unfold Recipe.clockMap at hk
        split at hk
        · cases hk
        · rename_i h1
          split at hk
          · rename_i h2; cases hk; exact .inl ⟨h1, h2, rfl⟩
          · split at hk
            · rename_i h3; cases hk; exact .inr ⟨h3, rfl⟩
            · cases hk
      intro i j k _ _ hk hk'
      rcases cm hk with ⟨g1, g2, g3⟩ | ⟨g1, g2⟩ <;> rcases cm hk' with ⟨g1', g2', g3'⟩ | ⟨g1', g2'⟩
      · exact e1 i g2 g1 j g2' g1' (g3.symm.trans g3')
      · have := (e2 (by rw [hqr j g1']; rfl)).1 i g2 g1
        omega
      · have := (e2 (by rw [hql i g1]; rfl)).2 j g2' g1'
        omega
      · rcases hone with e | e
        · rw [e] at g1; cases g1
        · rw [e] at g1'; cases g1'
  · cases h
    exact same ⟨rfl, rfl, rfl⟩

/-! ## One recipe -/

theorem QueryEnv.reduceOne_form (hZ : ∀ d, dim (Z d) = d + 1) (X : QueryEnv Z) {r r' : Recipe} {d d' : Nat}
    {q : Option Nat} (he : (X.analysed d).Perm) (hnum : (r.clockIndices ++ q.toList).Perm (List.range' 1 d))
    (hmax : d + 1 ≤ 4294967295) (hr : ∀ c ∈ r.components, c.Reducible (d + 1) ∧ c.UpdatesAgree)
    (hqr : ∀ i ∈ r.quotientClocks, q = some i)
    (hharm : X.reduce = true → ∀ ins, X.Reports d (X.analysed d) X.order r ins → ∀ i, .remove i ∈ ins →
      ∀ c ∈ r.components, c.HarmlessFor [i])
    (hmerge : X.reduce = true → ∀ ins, X.Reports d (X.analysed d) X.order r ins → ∀ c cs, .replace c cs ∈ ins → q = some c)
    (h : X.reduceOne r d q = .ok (r', d')) : ∃ ρ, r.ReducedTo r' (d + 1) (d' + 1) ρ := by
  obtain ⟨hnd, hfresh, hmem, hlen⟩ := numbering hnum
  have hq : ∀ i, q = some i → 0 < i ∧ i < d + 1 := fun i hi => (hmem i).1 (.inr hi)
  have okr : r.Ok (d + 1) := ⟨fun c hc => (hr c hc).1.clear.ok, fun i hi => hq i (hqr i hi)⟩
  have same : r' = r ∧ d' = d → ∃ ρ, r.ReducedTo r' (d + 1) (d' + 1) ρ := by
    rintro ⟨rfl, rfl⟩
    obtain ⟨ρ, h1, _⟩ := Recipe.ReducedTo.refl okr hr hnd hfresh hqr
    exact ⟨ρ, h1⟩
  unfold QueryEnv.reduceOne at h
  split at h
  · rename_i hred
    unfold clockReduce at h
    split at h
    · rw [ok_bind] at h
      cases h
      exact same ⟨rfl, rfl⟩
    · dsimp only at h
      obtain ⟨⟨r1, o, d1⟩, h1, h⟩ := bind_ok h
      obtain ⟨⟨r2, d2⟩, h2, h1⟩ := bind_ok h1
      cases h1
      cases h
      have h3 := h2
      unfold clockReduceSingle at h3
      obtain ⟨⟨s, j⟩, hs, h3⟩ := bind_ok h3
      obtain ⟨ins, hins, h3⟩ := bind_ok h3
      clear h3
      have hby : ReducedBy (Z d) r q ins := ⟨fun c hc => by rw [hZ]; exact (hr c hc).1, fun _ c hc => (hr c hc).2, hqr,
        hharm hred ins ⟨s, j, hs, hins⟩⟩
      have hm := hmerge hred ins ⟨s, j, hs, hins⟩
      obtain ⟨rem, reps, f, d3, g, n, S, e, hd, hg, hgood, hrem, hsame, hcase, hreps, hinj, hrange, hS, hn, hq'⟩ :=
        clockReduceSingle_form (X.analysed d) he X.order (X.acts d) r d q hnum (hZ d) (by rw [hZ]; exact hmax) s j hs ins
        hins hby (.inr hm)
      rw [h2] at e
      cases e
      have hreps := hreps hm
      obtain ⟨a1, _, a3, a4⟩ := side_reduces hby (by rw [hZ]; exact okr) hnd hfresh hrem hinj hrange hS hn hq' hcase
      rw [hZ] at a1
      refine ⟨_, ⟨⟨_, _, _, _, rfl, a1, rfl⟩, a3 hreps, ?_⟩⟩
      by_cases h : r.quotientClocks = []
      · refine ⟨0, fun c hm => (hr c hm).2, hnd, fun hm => ?_, fun x hx => by rw [h] at hx; cases hx⟩
        exact absurd (clockIndices_lt okr hm).1 (by simp)
      · exact (a4 h).2
  · cases h
    exact same ⟨rfl, rfl⟩

end Reveaal
