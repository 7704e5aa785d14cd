import Verif.Props.C78

/-!
# C78: answering a query never crashes
-/

namespace Reveaal
open ZoneLib

/-- Every component has an initial location. -/
def Recipe.Starts (r : Recipe) : Prop := ∀ c ∈ r.components, ∃ l ∈ c.locations, l.ty = .initial

section
variable {F : Type} [ZoneLib F]

theorem Recipe.Starts.initial : ∀ {r : Recipe} {env : CompileEnv F} {i j : Nat} {s : Sys F}, env.Perm → r.Starts →
    (∀ c ∈ r.components, c.Complete) → r.compile env i = .ok (s, j) → s.initialLoc ≠ .ok none
  | .component c x, env, i, j, s, he, hs, hc, h => by
    obtain ⟨k, hk, h⟩ := bind_ok h
    cases h
    obtain ⟨loc, hloc, hty⟩ := hs c (by simp [Recipe.components])
    have hk : CompComp.compileWith (env.locOrder i) c (c.specificActions .input) (c.specificActions .output) i = .ok k := hk
    obtain ⟨l, ⟨p, hp, rfl⟩, h1⟩ := compiled_loc (he i) hk (hc c (by simp [Recipe.components])).ids hloc
    intro hi
    have hi : k.initial = none := Except.ok.inj hi
    rw [initial_find hk] at hi
    refine absurd ?_ (List.find?_eq_none.1 hi _ (List.mem_map.2 ⟨p, hp, rfl⟩))
    obtain ⟨_, h2, _⟩ := simple_spec h1
    rw [h2]
    simp [LocTree.isInitial, LocTree.ty, hty]
  | .composition l r, env, i, j, s, he, hs, hc, h => by
    obtain ⟨⟨a, i1⟩, h1, h⟩ := bind_ok h
    obtain ⟨⟨b, i2⟩, h2, h⟩ := bind_ok h
    obtain ⟨x, h3, h⟩ := bind_ok h
    cases h
    have n1 := Recipe.Starts.initial (env := env.sub false) he (fun c h => hs c (List.mem_append_left _ h))
      (fun c h => hc c (List.mem_append_left _ h)) h1
    have n2 := Recipe.Starts.initial (env := env.sub true) he (fun c h => hs c (List.mem_append_right _ h))
      (fun c h => hc c (List.mem_append_right _ h)) h2
    obtain ⟨_, _, _, _, _, rfl⟩ := Sys.newComposition_eq h3
    intro h
    exact (Sys.prod_init_none h).elim n1 n2
  | .conjunction l r, env, i, j, s, he, hs, hc, h => by
    obtain ⟨⟨a, i1⟩, h1, h⟩ := bind_ok h
    obtain ⟨⟨b, i2⟩, h2, h⟩ := bind_ok h
    obtain ⟨x, h3, h⟩ := bind_ok h
    cases h
    have n1 := Recipe.Starts.initial (env := env.sub false) he (fun c h => hs c (List.mem_append_left _ h))
      (fun c h => hc c (List.mem_append_left _ h)) h1
    have n2 := Recipe.Starts.initial (env := env.sub true) he (fun c h => hs c (List.mem_append_right _ h))
      (fun c h => hc c (List.mem_append_right _ h)) h2
    obtain ⟨_, _, rfl⟩ := Sys.newConjunction_eq (newConjunction_unchecked h3)
    intro h
    exact (Sys.prod_init_none h).elim n1 n2
  | .quotient l r q, env, i, j, s, he, hs, hc, h => by
    obtain ⟨⟨a, i1⟩, h1, h⟩ := bind_ok h
    obtain ⟨⟨b, i2⟩, h2, h⟩ := bind_ok h
    obtain ⟨x, h3, h⟩ := bind_ok h
    cases h
    have n1 := Recipe.Starts.initial (env := env.sub false) he (fun c h => hs c (List.mem_append_left _ h))
      (fun c h => hc c (List.mem_append_left _ h)) h1
    have n2 := Recipe.Starts.initial (env := env.sub true) he (fun c h => hs c (List.mem_append_right _ h))
      (fun c h => hc c (List.mem_append_right _ h)) h2
    obtain ⟨_, _, _, rfl⟩ := Sys.newQuotient_eq (newQuotient_unchecked h3)
    intro h
    obtain ⟨o, h4, h⟩ := bind_ok h
    cases o with
    | none => exact n1 h4
    | some a =>
      obtain ⟨o2, h5, h⟩ := bind_ok h
      cases o2 with
      | none => exact n2 h5
      | some b => cases h

theorem Component.Complete.reduced {c : Component} (h : c.Complete) (hn : c.ByName) (rem : List Nat) (f : Nat → Nat) :
    (c.reduced rem f).Complete := by
  have hl : (c.reduced rem f).locations = c.locations.map (Location.strip (c.decls.namesOf rem)) := rfl
  have he : (c.reduced rem f).edges = c.edges.map (Edge.strip (c.decls.namesOf rem)) := rfl
  have hid : (c.reduced rem f).locations.map (·.id) = c.locations.map (·.id) := by
    rw [hl, List.map_map]; rfl
  refine ⟨fun e he' g hg => ?_, fun l hl' g hg => ?_, by rw [hid]; exact h.ids, fun e he' => ?_, fun e he' us hu u hu' => ?_⟩
  · rw [he] at he'
    obtain ⟨e, hm, rfl⟩ := List.mem_map.1 he'
    have hg : e.guard.map (BoolE.strip (c.decls.namesOf rem)) = some g := hg
    cases h1 : e.guard with
    | none => rw [h1] at hg; cases hg
    | some g1 =>
      rw [h1] at hg
      cases hg
      exact good_reduced (hn.1 e hm g1 h1) (h.guards e hm g1 h1)
  · rw [hl] at hl'
    obtain ⟨l, hm, rfl⟩ := List.mem_map.1 hl'
    have hg : l.invariant.map (BoolE.strip (c.decls.namesOf rem)) = some g := hg
    cases h1 : l.invariant with
    | none => rw [h1] at hg; cases hg
    | some g1 =>
      rw [h1] at hg
      cases hg
      exact good_reduced (hn.2 l hm g1 h1) (h.invs l hm g1 h1)
  · rw [he] at he'
    obtain ⟨e, hm, rfl⟩ := List.mem_map.1 he'
    rw [hid]
    exact h.ends e hm
  · rw [he] at he'
    obtain ⟨e, hm, rfl⟩ := List.mem_map.1 he'
    have hu : (e.update.map fun us => us.filter fun u => !((c.decls.namesOf rem).contains u.var)) = some us := hu
    cases h1 : e.update with
    | none => rw [h1] at hu; cases hu
    | some us1 =>
      rw [h1] at hu
      cases hu
      obtain ⟨h2, h3⟩ := List.mem_filter.1 hu'
      obtain ⟨h4, h5⟩ := h.updates e hm us1 h1 u h2
      refine ⟨h4, ?_⟩
      obtain ⟨p, hp, hpu⟩ := List.mem_map.1 h5
      refine List.mem_map.2 ⟨(p.1, f p.2), List.mem_map.2 ⟨p, List.mem_filter.2 ⟨hp, ?_⟩, rfl⟩, hpu⟩
      rw [hpu]; exact h3

theorem Recipe.ReducedTo.complete {r r' : Recipe} {n m : Nat} {ρ : ClockMap} (h : r.ReducedTo r' n m ρ)
    (hc : ∀ c ∈ r.components, c.Complete) (c : Component) (hm : c ∈ r'.components) : c.Complete := by
  obtain ⟨rem, g, k, q', rfl, h', _⟩ := h.form
  rw [Recipe.reshape_components] at hm
  obtain ⟨c, h1, rfl⟩ := List.mem_map.1 hm
  exact (hc c h1).reduced (h'.comps c h1).1.byName rem g

/-- The clock analysis of a system that starts somewhere. -/
theorem analysis_decided {s : Sys F} (hs : s.Accepted) (hi : s.initialLoc ≠ .ok none) (ord : HashOrder) (acts : List String) :
    Decided fun n => findRedundantClocks ord s.ts acts n := by
  obtain ⟨o, ho, _⟩ := hs.good.initial
  cases o with
  | some l => exact C59_clock_analysis hs ho ord acts
  | none => exact absurd ho hi

end

/-! ## Queries -/

variable {Z : Nat → Type} [∀ d, ZoneLib (Z d)]

/-- The system of the query is refused, or that with fewer clocks that takes its place. -/
def QueryEnv.Refuses (X : QueryEnv Z) (r : Recipe) (d : Nat) (q : Option Nat) : Prop :=
  r.Refused (Z d) ∨ ∃ n r' d', (X.withFuel n).reduceOne r d q = .ok (r', d') ∧ r'.Refused (Z d')

theorem QueryEnv.reduceOne_endsWell (hZ : ∀ d, dim (Z d) = d + 1) (hfin : ∀ d, FiniteExtrapolation (Z d)) (X : QueryEnv Z)
    (hX : X.Fair) {r : Recipe} {d : Nat} {q : Option Nat} (hnum : (r.clockIndices ++ q.toList).Perm (List.range' 1 d))
    (hqr : ∀ i ∈ r.quotientClocks, q = some i) (hc : ∀ n, (X.withFuel n).Askable r d q)
    (hcc : ∀ c ∈ r.components, c.Complete) (hst : X.reduce = true → d ≠ 0 → r.Starts) (hr1 : r.FairEnv (X.analysed d)) :
    EndsWell (r.Refused (Z d)) fun n => (X.withFuel n).reduceOne r d q := by
  have hq : ∀ i, q = some i → 0 < i ∧ i < d + 1 := fun i hi => ((numbering hnum).2.2.1 i).1 (.inr hi)
  have okr : r.Ok (dim (Z d)) := by
    rw [hZ]; exact ⟨fun c hm => ((hc 0).comps c hm).1.clear.ok, fun i hi => hq i (hqr i hi)⟩
  unfold QueryEnv.reduceOne
  show EndsWell _ fun n => if X.reduce then _ else _
  cases hred : X.reduce with
  | false => exact .const trivial
  | true =>
    simp only [if_true]
    refine EndsWell.bind (f := fun n => clockReduce ((X.withFuel n).analysed d) ((X.withFuel n).analysed' d) X.order X.order'
      (X.acts d) r none d q) ?_ fun _ _ _ => .const trivial
    unfold clockReduce
    by_cases hd : d = 0
    · simp only [hd, if_true]; exact .const trivial
    · simp only [hd, if_false]
      refine EndsWell.bind (f := fun n => clockReduceSingle ((X.analysed d).withFuel n) X.order (X.acts d) r d q) ?_
        fun _ _ _ => .const trivial
      unfold clockReduceSingle
      refine (C78_compile_partial (hfin d) r (X.analysed d) 0 (hX.compiled d).1 okr hcc hr1).bind fun x N hx => ?_
      obtain ⟨s, j⟩ := x
      have hacc := Recipe.compile_accepted (env := (X.analysed d).withFuel N) (hX.compiled d).1 okr (hx N le_rfl)
      have hin := Recipe.Starts.initial (env := (X.analysed d).withFuel N) (hX.compiled d).1 (hst hred hd) hcc (hx N le_rfl)
      dsimp only
      refine (Decided.endsWell (analysis_decided hacc hin X.order (X.acts d s))).bind fun ins M hM => .const ?_
      have h1 := hx (max N M) (le_max_left _ _)
      have h2 := hM (max N M) (le_max_right _ _)
      have hrep : (X.withFuel (max N M)).Reports d ((X.withFuel (max N M)).analysed d) X.order r ins := ⟨s, j, h1, h2⟩
      have hby : ReducedBy (Z d) r q ins := ⟨fun c hm => by rw [hZ]; exact ((hc 0).comps c hm).1, fun _ c hm =>
        ((hc 0).comps c hm).2, hqr, (hc (max N M)).harmless hred ins hrep⟩
      obtain ⟨rem, reps, f, d', _, _, _, e, _⟩ := clockReduceSingle_form ((X.analysed d).withFuel (max N M)) (hX.compiled d).1
        X.order (X.acts d) r d q hnum (hZ d) (by rw [hZ]; exact (hc 0).small) s j h1 ins h2 hby
        (.inr ((hc (max N M)).merge hred ins hrep))
      unfold clockReduceSingle at e
      rw [h1, ok_bind] at e
      dsimp only at e
      rw [show findRedundantClocks X.order s.ts (X.acts d s) ((X.analysed d).withFuel (max N M)).fuel = .ok ins from h2,
        ok_bind] at e
      rw [e]
      trivial

/-- The systems of queries about one system are made without a crash. -/
theorem QueryEnv.system_endsWell (hZ : ∀ d, dim (Z d) = d + 1) (hfin : ∀ d, FiniteExtrapolation (Z d)) (X : QueryEnv Z)
    (hX : X.Fair) (load : String → Res Component) (hload : ∀ n c, load n = .ok c → c.decls.Numbered) (e : SysExpr)
    (r : Recipe) (d : Nat) (q : Option Nat) (hr : getRecipes load [e] 0 none = .ok ([r], d, q))
    (hc : ∀ n, (X.withFuel n).Askable r d q) (hcc : ∀ c ∈ r.components, c.Complete)
    (hst : X.reduce = true → d ≠ 0 → r.Starts) (hr1 : r.FairEnv (X.analysed d))
    (henv : ∀ n r' d', (X.withFuel n).reduceOne r d q = .ok (r', d') → r'.FairEnv (X.compiled d')) :
    EndsWell (X.Refuses r d q) fun n => (X.withFuel n).system load e := by
  obtain ⟨hnum, hqr⟩ := C60_numbered hload hr
  obtain ⟨⟨r0, d1, q1⟩, ha, hr⟩ := bind_ok hr
  cases hr
  have hform := fun n r' d' => (X.withFuel n).reduceOne_form hZ (r := r) (r' := r') (d := d) (d' := d') (q := q) ((hX.withFuel n).compiled d).1
    hnum (hc n).small (hc n).comps hqr (hc n).harmless (hc n).merge
  unfold QueryEnv.system
  rw [ha]
  simp only [ok_bind]
  unfold QueryEnv.systemOf
  refine ((X.reduceOne_endsWell hZ hfin hX hnum hqr hc hcc hst hr1).mono .inl).bind fun x N hN => ?_
  obtain ⟨r', d'⟩ := x
  have hred := hN N le_rfl
  obtain ⟨ρ, a⟩ := hform N r' d' hred
  have f1 := henv N r' d' hred
  rw [← hZ, ← hZ] at a
  exact ((C78_compile_partial (hfin d') r' (X.compiled d') 0 (hX.compiled d').2.2.1 a.ok' (a.complete hcc) f1).mono
    fun h => .inr ⟨N, r', d', hred, h⟩).bind fun _ _ _ => .const trivial

/-- **C78** (partial) Consistency and determinism queries about complete components end, with an answer or with an error
message that refuses the system for one of the reasons of `Recipe.Refused`; the only crash is an overflow of constants.
If clocks are reduced, all components must have an initial location (`C64_violated_nowhere`). -/
theorem C78_checks_partial (hZ : ∀ d, dim (Z d) = d + 1) (hfin : ∀ d, FiniteExtrapolation (Z d)) (X : QueryEnv Z)
    (hX : X.Fair) (hch : X.FairChecks)
    (load : String → Res Component) (hload : ∀ n c, load n = .ok c → c.decls.Numbered) (e : SysExpr)
    (r : Recipe) (d : Nat) (q : Option Nat) (hr : getRecipes load [e] 0 none = .ok ([r], d, q))
    (hc : ∀ n, (X.withFuel n).Askable r d q) (hcc : ∀ c ∈ r.components, c.Complete)
    (hst : X.reduce = true → d ≠ 0 → r.Starts) (hr1 : r.FairEnv (X.analysed d))
    (henv : ∀ n r' d', (X.withFuel n).reduceOne r d q = .ok (r', d') → r'.FairEnv (X.compiled d')) :
    (EndsWell (X.Refuses r d q) fun n => (X.withFuel n).run load (.consistency e)) ∧
    EndsWell (X.Refuses r d q) fun n => (X.withFuel n).run load (.determinism e) := by
  have h := QueryEnv.system_endsWell hZ hfin X hX load hload e r d q hr hc hcc hst hr1 henv
  have acc : ∀ x n, (X.withFuel n).system load e = .ok x → x.2.Accepted := by
    rintro ⟨d', s'⟩ n hx
    obtain ⟨r', ρ, j, a, h3⟩ := (X.withFuel n).system_form hZ (hX.withFuel n) hload hr (hc n) hx
    exact Recipe.compile_accepted ((hX.withFuel n).compiled d').2.2.1 a.ok' h3
  constructor
  · refine h.bind fun x n hx => ?_
    exact (C59_consistency (hfin x.1) (acc x n (hx n le_rfl)) _ (hch x.1 x.2).1).endsWell.bind fun o _ _ => .const trivial
  · refine h.bind fun x n hx => ?_
    exact (C59_determinism (hfin x.1) (acc x n (hx n le_rfl)) _ (hch x.1 x.2).1).endsWell.bind fun o _ _ => .const trivial

/-- One of the two systems of a refinement is refused, or that with fewer clocks that takes its place. -/
def QueryEnv.RefusesTwo (X : QueryEnv Z) (l r : Recipe) (d : Nat) (q : Option Nat) : Prop :=
  l.Refused (Z d) ∨ r.Refused (Z d) ∨
    ∃ n l' r' d', (X.withFuel n).reduceTwo l r d q = .ok (l', r', d') ∧ (l'.Refused (Z d') ∨ r'.Refused (Z d'))

/-- **C78** (partial) The same for refinement queries. -/
theorem C78_refinement_partial (hZ : ∀ d, dim (Z d) = d + 1) (hfin : ∀ d, FiniteExtrapolation (Z d)) (X : QueryEnv Z)
    (hX : X.Fair) (hch : X.FairChecks)
    (load : String → Res Component) (hload : ∀ n c, load n = .ok c → c.decls.Numbered) (e e' : SysExpr) (l r : Recipe)
    (d : Nat) (q : Option Nat) (hr : getRecipes load [e, e'] 0 none = .ok ([l, r], d, q))
    (hc : ∀ n, (X.withFuel n).Comparable l r d q) (hcl : ∀ c ∈ l.components, c.Complete)
    (hcr : ∀ c ∈ r.components, c.Complete) (hst : X.reduce = true → d ≠ 0 → l.Starts ∧ r.Starts)
    (hl1 : l.FairEnv (X.analysed d)) (hr1 : r.FairEnv (X.analysed' d))
    (henv : ∀ n l' r' d', (X.withFuel n).reduceTwo l r d q = .ok (l', r', d') →
      l'.FairEnv (X.compiled d') ∧ r'.FairEnv (X.compiled' d')) :
    EndsWell (X.RefusesTwo l r d q) fun n => (X.withFuel n).run load (.refinement e e') := by
  obtain ⟨hnum, horder, hql, hqr⟩ := C60_numbered_two hload hr
  obtain ⟨⟨l0, d1, q1⟩, ha, hr⟩ := bind_ok hr
  obtain ⟨⟨bs, d2, q2⟩, hb, hr⟩ := bind_ok hr
  obtain ⟨⟨r0, d3, q3⟩, hb, h'⟩ := bind_ok hb
  cases h'
  cases hr
  have hform := fun n l' r' d' => (X.withFuel n).reduceTwo_form hZ (l := l) (r := r) (l' := l') (r' := r') (d := d) (d' := d')
    (q := q) ((hX.withFuel n).compiled d).1
    ((hX.withFuel n).compiled d).2.1 hnum horder (hc n).small (hc n).left (hc n).right hql hqr (hc n).one (hc n).harmless
    (hc n).harmless' (hc n).merge
  have hq : ∀ i, q = some i → 0 < i ∧ i < d + 1 := fun i hi => ((numbering hnum).2.2.1 i).1 (.inr hi)
  have okl : l.Ok (dim (Z d)) := by
    rw [hZ]; exact ⟨fun c hm => ((hc 0).left c hm).1.clear.ok, fun i hi => hq i (hql i hi)⟩
  have okr : r.Ok (dim (Z d)) := by
    rw [hZ]; exact ⟨fun c hm => ((hc 0).right c hm).1.clear.ok, fun i hi => hq i (hqr i hi)⟩
  show EndsWell _ fun n => (X.withFuel n).refinement load e e'
  unfold QueryEnv.refinement
  rw [ha]
  simp only [ok_bind]
  rw [hb]
  simp only [ok_bind]
  unfold QueryEnv.refinementOf
  refine EndsWell.bind (f := fun n => (X.withFuel n).reduceTwo l r d q) ?_ fun x N hN => ?_
  · unfold QueryEnv.reduceTwo
    show EndsWell _ fun n => if X.reduce then _ else _
    cases hred : X.reduce with
    | false => exact .const trivial
    | true =>
      simp only [if_true]
      unfold clockReduce
      by_cases hd : d = 0
      · simp only [hd, if_true]; exact .const trivial
      · simp only [hd, if_false]
        simp only [bind_assoc]
        refine EndsWell.bind (f := fun n => clockReduceTwo ((X.analysed d).withFuel n) ((X.analysed' d).withFuel n) X.order
          X.order' (X.acts d) l r d q) ?_ fun _ _ _ => .const trivial
        unfold clockReduceTwo
        refine ((C78_compile_partial (hfin d) l (X.analysed d) 0 (hX.compiled d).1 okl hcl hl1).mono .inl).bind fun x N hx => ?_
        obtain ⟨s, j⟩ := x
        have hacc := Recipe.compile_accepted (env := (X.analysed d).withFuel N) (hX.compiled d).1 okl (hx N le_rfl)
        have hin := Recipe.Starts.initial (env := (X.analysed d).withFuel N) (hX.compiled d).1 (hst hred hd).1 hcl (hx N le_rfl)
        dsimp only
        refine (Decided.endsWell (analysis_decided hacc hin X.order (X.acts d s))).bind fun cl M hM => ?_
        refine ((C78_compile_partial (hfin d) r (X.analysed' d) 0 (hX.compiled d).2.1 okr hcr hr1).mono
          fun h => .inr (.inl h)).bind fun y K hy => ?_
        obtain ⟨t, k⟩ := y
        have hacc' := Recipe.compile_accepted (env := (X.analysed' d).withFuel K) (hX.compiled d).2.1 okr (hy K le_rfl)
        have hin' := Recipe.Starts.initial (env := (X.analysed' d).withFuel K) (hX.compiled d).2.1 (hst hred hd).2 hcr
          (hy K le_rfl)
        dsimp only
        refine (Decided.endsWell (analysis_decided hacc' hin' X.order' (X.acts d t))).bind fun cr L hL => .const ?_
        obtain ⟨P, p1, p2, p3, p4⟩ : ∃ P, N ≤ P ∧ M ≤ P ∧ K ≤ P ∧ L ≤ P :=
          ⟨max (max N M) (max K L), by omega, by omega, by omega, by omega⟩
        have h1 := hx P p1
        have h2 := hM P p2
        have h3 := hy P p3
        have h4 := hL P p4
        have rep1 : (X.withFuel P).Reports d ((X.withFuel P).analysed d) X.order l cl := ⟨s, j, h1, h2⟩
        have rep2 : (X.withFuel P).Reports d ((X.withFuel P).analysed' d) X.order' r cr := ⟨t, k, h3, h4⟩
        obtain ⟨rl, rr, f, d', e, _⟩ := clockReduceTwo_form ((X.analysed d).withFuel P) ((X.analysed' d).withFuel P)
          (hX.compiled d).1 (hX.compiled d).2.1 X.order X.order' (X.acts d) l r d q hnum horder (hZ d)
          (by rw [hZ]; exact (hc 0).small) s t j k h1 h3 cl cr h2 h4
          ⟨fun c hm => by rw [hZ]; exact ((hc 0).left c hm).1, fun _ c hm => ((hc 0).left c hm).2, hql,
            (hc P).harmless hred cl rep1⟩
          ⟨fun c hm => by rw [hZ]; exact ((hc 0).right c hm).1, fun _ c hm => ((hc 0).right c hm).2, hqr,
            (hc P).harmless' hred cr rep2⟩
          ((hc P).merge hred cl cr rep1 rep2)
        unfold clockReduceTwo at e
        rw [h1, ok_bind] at e
        dsimp only at e
        rw [show findRedundantClocks X.order s.ts (X.acts d s) ((X.analysed d).withFuel P).fuel = .ok cl from h2,
          ok_bind, h3, ok_bind] at e
        dsimp only at e
        rw [show findRedundantClocks X.order' t.ts (X.acts d t) ((X.analysed' d).withFuel P).fuel = .ok cr from h4,
          ok_bind] at e
        rw [e]
        trivial
  · obtain ⟨l', r', d'⟩ := x
    have hred := hN N le_rfl
    obtain ⟨ρ, σ, a, b, _⟩ := hform N l' r' d' hred
    obtain ⟨f1, f2⟩ := henv N l' r' d' hred
    rw [← hZ, ← hZ] at a b
    refine ((C78_compile_partial (hfin d') l' (X.compiled d') 0 (hX.compiled d').2.2.1 a.ok' (a.complete hcl) f1).mono
      fun h => .inr (.inr ⟨N, l', r', d', hred, .inl h⟩)).bind fun x n hx => ?_
    refine ((C78_compile_partial (hfin d') r' (X.compiled' d') x.2 (hX.compiled d').2.2.2 b.ok' (b.complete hcr) f2).mono
      fun h => .inr (.inr ⟨N, l', r', d', hred, .inr h⟩)).bind fun y m hy => ?_
    refine (C59_refinement (hfin d')
      (Recipe.compile_accepted (env := (X.compiled d').withFuel n) (hX.compiled d').2.2.1 a.ok' (hx n le_rfl))
      (Recipe.compile_accepted (env := (X.compiled' d').withFuel m) (hX.compiled d').2.2.2 b.ok' (hy m le_rfl)) _ _
      (hch d' x.1).1 (hch d' y.1).2 _ _ (fun a ha => (hX.outs d' x.1 a).1 ha)
      (fun a ha => (hX.ins d' y.1 a).1 ha)).endsWell.bind fun o _ _ => .const trivial

/-! ## Cases that meet the hypotheses -/

theorem goodGuard_ge {d : Decls} {n : String} {i : Nat} (h : d.clocks.lookup n = some i) (k : Int) :
    GoodGuard d (.ge (.var n) (.int k)) := .posConst (.chain (.clock (.inr ⟨n, rfl, h⟩))) rfl

theorem goodGuard_le {d : Decls} {n : String} {i : Nat} (h : d.clocks.lookup n = some i) (k : Int) :
    GoodGuard d (.le (.var n) (.int k)) := .posConst (.chain (.clock (.inr ⟨n, rfl, h⟩))) rfl

theorem exA_complete : exA.Complete := by
  refine ⟨fun e he g hg => ?_, fun l hl g hg => ?_, by decide, by decide, fun e he us hu u hu' => ?_⟩
  · simp only [exA, List.mem_cons, List.not_mem_nil, or_false] at he
    rcases he with rfl | rfl <;> cases hg
    exact goodGuard_ge rfl 2
  · simp only [exA, List.mem_cons, List.not_mem_nil, or_false] at hl
    rcases hl with rfl | rfl <;> cases hg
    exact goodGuard_le rfl 5
  · simp only [exA, List.mem_cons, List.not_mem_nil, or_false] at he
    rcases he with rfl | rfl <;> cases hu
    rw [List.mem_singleton.1 hu']
    exact ⟨⟨0, rfl⟩, by decide⟩

theorem exC_complete : exC.Complete := by
  refine ⟨fun e he g hg => ?_, fun l hl g hg => ?_, by decide, by decide, fun e he us hu u hu' => ?_⟩
  · simp only [exC, List.mem_cons, List.not_mem_nil, or_false] at he
    rcases he with rfl | rfl <;> cases hg
    exact goodGuard_ge rfl 3
  · simp only [exC, List.mem_cons, List.not_mem_nil, or_false] at hl
    rcases hl with rfl | rfl <;> cases hg
    exact goodGuard_le rfl 4
  · simp only [exC, List.mem_cons, List.not_mem_nil, or_false] at he
    rcases he with rfl | rfl <;> cases hu
    rw [List.mem_singleton.1 hu']
    exact ⟨⟨0, rfl⟩, by decide⟩

/-- Non-vacuity: the conjunction of the two machines is built. -/
example : EndsWell (finRecipe.Refused FinFed) fun n => finRecipe.compile (finEnv.withFuel n) 0 :=
  C78_compile_partial finFed_finite _ _ _ finEnv_perm finRecipe_ok (fun c hc => by
    rcases List.mem_cons.1 hc with rfl | hc
    · exact exA_complete
    · rw [List.mem_singleton.1 hc]; exact exC_complete) finRecipe_fair

/-- Their composition is refused: both have the output `out`. -/
example : (Recipe.composition (.component exA none) (.component exC none)).Refused FinFed ∧
    ∃ m, (Recipe.composition (.component exA none) (.component exC none)).compile finEnv 0 = .error (.err m) :=
  ⟨.composition (s := finA) (t := finC) (a := "out") ⟨finEnv, 0, 1, finEnv_perm, rfl⟩ ⟨finEnv, 2, 3, finEnv_perm, rfl⟩
    (by decide +kernel) (by decide +kernel), ⟨_, rfl⟩⟩

theorem exClient_complete : exClient.Complete := by
  refine ⟨fun e he g hg => ?_, fun l hl g hg => ?_, by decide, by decide, fun e he us hu u hu' => ?_⟩
  · rw [List.mem_singleton.1 he] at hg
    cases hg
    exact goodGuard_ge rfl 2
  · rw [List.mem_singleton.1 hl] at hg
    cases hg
    exact goodGuard_le rfl 5
  · rw [List.mem_singleton.1 he] at hu
    cases hu
    simp only [List.mem_cons, List.not_mem_nil, or_false] at hu'
    rcases hu' with rfl | rfl <;> exact ⟨⟨0, rfl⟩, by decide⟩

theorem exServer3_complete {k : Int} : (exServer3 k).Complete := by
  refine ⟨fun e he g hg => ?_, fun l hl g hg => ?_, List.nodup_singleton _, ?_, fun e he us hu u hu' => ?_⟩
  · rw [List.mem_singleton.1 he] at hg
    cases hg
    exact goodGuard_ge rfl k
  · rw [List.mem_singleton.1 hl] at hg
    cases hg
  · intro e he
    rw [List.mem_singleton.1 he]
    exact ⟨.head _, .head _⟩
  · rw [List.mem_singleton.1 he] at hu
    cases hu
    rw [List.mem_singleton.1 hu']
    exact ⟨⟨0, rfl⟩, .head _⟩

/-- More steps do not change what the analysis reports. -/
theorem findRedundantClocks_same {F : Type} [ZoneLib F] {s : Sys F} {ord : HashOrder} {acts : List String} {n m : Nat}
    {a b : List ClockInstr} (h : findRedundantClocks ord s.ts acts n = .ok a)
    (h' : findRedundantClocks ord s.ts acts m = .ok b) : a = b := by
  have mono : ∀ n, Below (findRedundantClocks ord s.ts acts n) (findRedundantClocks ord s.ts acts (n + 1)) := by
    intro n
    unfold findRedundantClocks analysisGraph
    refine Below.bind (Below.bind (.refl _) fun o => ?_) fun g => .refl _
    cases o with
    | none => exact .refl _
    | some l => exact findEdges_mono s.ts acts n [l] ⟨[], []⟩
  rcases Nat.le_total n m with hle | hle
  · have := settled mono (N := n) (by rw [h]; simp) m hle
    rw [h, h'] at this
    exact (Except.ok.inj this).symm
  · have := settled mono (N := m) (by rw [h']; simp) n hle
    rw [h, h'] at this
    exact Except.ok.inj this

/-- What the analysis reports for `A` alone. -/
def reportedFin : Res (List ClockInstr) := do
  let (s, _) ← (Recipe.component exClient none).compile (envK (FinD 2)) 0
  findRedundantClocks plainOrder s.ts ((plainQueries (Z := FinD) true).acts 2 s) 20

theorem exOne_askable_always (n : Nat) :
    ((plainQueries (Z := FinD) true).withFuel n).Askable (.component exClient none) 2 none := by
  have key : ∀ ins, ((plainQueries (Z := FinD) true).withFuel n).Reports 2 ((envK (FinD 2)).withFuel n) plainOrder
      (.component exClient none) ins → ins = [.remove 2] := by
    rintro ins ⟨s, j, h1, h2⟩
    have h' : reportedFin = .ok [.remove 2] := by decide +kernel
    unfold reportedFin at h'
    rw [show (Recipe.component exClient none).compile (envK (FinD 2)) 0 = .ok (s, j) from h1, ok_bind] at h'
    exact findRedundantClocks_same h2 h'
  refine ⟨by decide, ?_, ?_, ?_⟩
  · intro c hc
    rw [List.mem_singleton.1 hc]
    exact ⟨exClient_reducible3, exClient_agree⟩
  · intro _ ins h i hi c hc
    rw [key ins h] at hi
    rw [List.mem_singleton.1 hc]
    intro n j hj hn
    rw [List.mem_singleton.1 hj] at hn
    simp only [List.mem_cons, ClockInstr.remove.injEq, List.not_mem_nil, or_false] at hi
    simp only [exClient, List.mem_cons, Prod.mk.injEq, List.not_mem_nil, or_false] at hn
    obtain ⟨rfl, rfl⟩ : n = "u" ∧ i = 2 := by
      rcases hn with ⟨_, h⟩ | h
      · omega
      · exact h
    refine ⟨fun e he g hg hm => ?_, fun l hl g hg hm => ?_⟩
    · rw [List.mem_singleton.1 he] at hg
      cases hg
      simp [BoolE.hasVar, Arith.hasVar] at hm
    · rw [List.mem_singleton.1 hl] at hg
      cases hg
      simp [BoolE.hasVar, Arith.hasVar] at hm
  · intro _ ins h c cs hm
    rw [key ins h] at hm
    simp at hm

/-- Non-vacuity: consistency and determinism queries about `A`, with clock reduction (one of its two clocks is superfluous). -/
example : (EndsWell ((plainQueries (Z := FinD) true).Refuses (.component exClient none) 2 none) fun n =>
      ((plainQueries (Z := FinD) true).withFuel n).run loadTwo (.consistency (.component "A" none))) ∧
    EndsWell ((plainQueries (Z := FinD) true).Refuses (.component exClient none) 2 none) fun n =>
      ((plainQueries (Z := FinD) true).withFuel n).run loadTwo (.determinism (.component "A" none)) := by
  refine C78_checks_partial (fun _ => rfl) (fun d => closureLib_finite (finDBase d)) _ (plainQueries_fair _)
    (fun _ s => ⟨ownOrders_all s, ownOrders_all s⟩) loadTwo loadTwo_numbered _ (.component exClient none) 2 none rfl
    exOne_askable_always ?_ ?_ trivial ?_
  · intro c hc
    rw [List.mem_singleton.1 hc]
    exact exClient_complete
  · intro _ _ c hc
    rw [List.mem_singleton.1 hc]
    exact ⟨_, .head _, rfl⟩
  · intro n r' d' h
    obtain ⟨ρ, a⟩ := ((plainQueries (Z := FinD) true).withFuel n).reduceOne_form (fun _ => rfl)
      (((plainQueries_fair true).withFuel n).compiled 2).1 (q := none) (.refl _) (by decide) (exOne_askable_always n).comps
      (fun i hi => by cases hi) (exOne_askable_always n).harmless (exOne_askable_always n).merge h
    obtain ⟨_, _, _, _, rfl, _⟩ := a.form
    exact trivial

/-- Non-vacuity: the refinement `A <= B`. -/
example : EndsWell ((plainQueries (Z := FinD) false).RefusesTwo (.component exClient none) (.component (exServer3 1) none) 3 none)
    fun n => ((plainQueries (Z := FinD) false).withFuel n).run loadTwo
      (.refinement (.component "A" none) (.component "B" none)) := by
  refine C78_refinement_partial (fun _ => rfl) (fun d => closureLib_finite (finDBase d)) _ (plainQueries_fair _)
    (fun _ s => ⟨ownOrders_all s, ownOrders_all s⟩) loadTwo loadTwo_numbered _ _ _ _ 3 none exTwo_recipes.1 (fun n => ?_)
    ?_ ?_ (fun h => by cases h) trivial trivial ?_
  · refine ⟨by decide, ?_, ?_, .inl rfl, (fun h => by cases h), (fun h => by cases h), fun h => by cases h⟩
    · intro c hc
      rw [List.mem_singleton.1 hc]
      exact ⟨exClient_reducible, exClient_agree⟩
    · intro c hc
      rw [List.mem_singleton.1 hc]
      exact ⟨exServer3_reducible (.inl rfl), exServer3_agree⟩
  · intro c hc
    rw [List.mem_singleton.1 hc]
    exact exClient_complete
  · intro c hc
    rw [List.mem_singleton.1 hc]
    exact exServer3_complete
  · intro n l' r' d' h
    cases (show Except.ok _ = _ from h)
    exact ⟨trivial, trivial⟩

/-! ## A crash

A guard that compares a difference of two clocks plus a constant is read, but building the component crashes. -/

def oddGuard : BoolE := .le (.add (.dif (.var "x") (.var "y")) (.int 3)) (.int 5)

def exOdd : Component := ⟨"D", ⟨[], [("x", 1), ("y", 2)]⟩, [⟨"L0", none, .initial, "NORMAL"⟩],
  [⟨"e", "L0", "L0", .output, some oddGuard, some [⟨"x", .int 0⟩], "out"⟩]⟩

def loadOdd : String → Res Component := fun n => if n = "D" then .ok exOdd else .error (.err "unknown")

/-- Whether it is a crash other than an overflow -/
def crashes : Res (QueryOutcome FedD) → Bool
  | .error (.panic m) => m ≠ "arithmetic overflow"
  | _ => false

/-- **C78** does not extend to all guards: `x - y + 3 <= 5` is read from text as it is meant and has a meaning (it holds if
both clocks are 0 and does not hold with `x` at 3 and `y` at 0), but all queries about a component with this guard crash. -/
theorem C78_violated_rejected_guard : parseGuard "x - y + 3 <= 5".toList = .ok oddGuard ∧
    (Recipe.component exOdd none).Ok (dim (FedD 2)) ∧
    Holds exOdd.decls (oneClock 0) oddGuard ∧ ¬ Holds exOdd.decls (oneClock 3) oddGuard ∧
    ∀ b, ∀ q ∈ [QueryExpr.consistency (.component "D" none), .determinism (.component "D" none),
        .refinement (.component "D" none) (.component "D" none)],
      ∃ m, (plainQueries (Z := FedD) b).run loadOdd q = .error (.panic m) ∧ m ≠ "arithmetic overflow" := by
  have crash : ∀ {x : Res (QueryOutcome FedD)}, crashes x = true → ∃ m, x = .error (.panic m) ∧ m ≠ "arithmetic overflow" := by
    intro x h
    unfold crashes at h
    split at h
    · exact ⟨_, rfl, of_decide_eq_true h⟩
    · cases h
  have e1 : exOdd.decls.clocks.lookup "x" = some 1 := rfl
  have e2 : exOdd.decls.clocks.lookup "y" = some 2 := rfl
  refine ⟨by decide +kernel, ⟨fun c hc => ?_, fun i hi => by cases hi⟩, ?_, ?_, fun b q hq => ?_⟩
  · rw [List.mem_singleton.1 hc]
    exact Component.ok_of_okB (by decide)
  · refine ⟨0 - 0 + 3, 5, ?_, ?_, by norm_num⟩
    · simp [value, e1, e2, oneClock]
    · simp [value]
  · rintro ⟨x, y, hx, hy, hxy⟩
    simp [value, e1, e2, oneClock] at hx hy
    subst hx hy
    norm_num at hxy
  · simp only [List.mem_cons, List.not_mem_nil, or_false] at hq
    rcases hq with rfl | rfl | rfl <;> cases b <;> exact crash (by decide +kernel)

end Reveaal
