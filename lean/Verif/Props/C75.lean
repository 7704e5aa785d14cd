import Verif.Props.C58
import Verif.Props.C64Reach
import Verif.Spec.PathReport

/-!
# C75 The path sent in answer to a reachability query tells a real execution
-/

namespace Reveaal
open ZoneLib
variable {F : Type} [ZoneLib F]

/-- What is sent for the decision of a transition of the system. -/
theorem decision_told {r : Recipe} {env : CompileEnv F} {j : Nat} {s : Sys F} (he : env.Perm) (hok : r.Ok (dim F))
    (hr : r.ClockTables) (hs : r.compile env 0 = .ok (s, j)) (hdim : dim F ≤ 2 ^ 32)
    {ord : List (String × Nat) → List (String × Nat)} (ho : ∀ l, (ord l).Perm l) {l : LocTree F} {a : String}
    {trans : List (Transition F)} {t : Transition F} (hl : s.IsLoc l) (ha : s.ts.hasAction a = true)
    (hn : s.ts.next l a = .ok trans) (ht : t ∈ trans) {d : Decision F} (h1 : d.state.loc = l) (h2 : d.action = a)
    (h3 : d.transition = some t) (h4 : d.nextState.loc = t.target) :
    ∃ x q tes, SpecificDecision.ofDecision ord s d = .ok x ∧ x.toProto = .ok q ∧ x.Tells r d ∧
      List.Forall₂ (NamesEdge r 0 l.id a) x.edges tes ∧ (r.NoQuotient → TakesAll t tes) := by
  obtain ⟨es, tes, n1, n2, n3⟩ := next_named he hs hl hn t ht
  have htl := ((Recipe.compile_accepted he hok hs).good.next_ok hl ha hn t ht).1
  obtain ⟨x, p, e1, e2, e3, e4⟩ := state_described he hr hs hdim ho (st := d.state) (by rw [h1]; exact hl)
  obtain ⟨y, q, f1, f2, f3, f4⟩ := state_described he hr hs hdim ho (st := d.nextState) (by rw [h4]; exact htl)
  refine ⟨⟨x, d.action, es, y⟩, ⟨some p, d.action, es, some q⟩, tes, ?_, ?_, ⟨rfl, e3, f3, e4, f4⟩, n2, n3⟩
  · simp only [SpecificDecision.ofDecision, h3, n1, e1, f1, ok_bind]
  · simp only [SpecificDecision.toProto, e2, f2, ok_bind]

theorem mapM_map {A B C : Type} {f : A → B} {g : B → Res C} : ∀ l : List A, (l.map f).mapM g = l.mapM fun a => g (f a)
  | [] => rfl
  | a :: l => by
    rw [List.map_cons, List.mapM_cons, List.mapM_cons, mapM_map l]

theorem sendState_specific {ord : List (String × Nat) → List (String × Nat)} {s : Sys F} {st : State F}
    {x : SpecificState} {q : ProtoState} (h : SpecificState.ofState ord s st = .ok x) (hq : x.toProto = .ok q) :
    sendState ord s st = .ok q := by
  obtain ⟨l, h1, h⟩ := bind_ok h
  cases h
  obtain ⟨p, h2, hq⟩ := bind_ok hq
  obtain ⟨z, h3, hq⟩ := bind_ok hq
  cases hq
  dsimp only at h2 h3
  have h4 : sendZone ord s st.zone = .ok z := by
    unfold specificDisjunction at h3
    rw [mapM_map] at h3
    unfold sendZone
    rw [← h3]
    congr 1
    funext c
    rw [mapM_map]
  simp only [sendState, sendLocation, h1, h2, h4, ok_bind]

/-- The decisions of a path are sent like those offered in a simulation. -/
theorem C75_same_messages {ord : List (String × Nat) → List (String × Nat)} {s : Sys F} {d : Decision F}
    {x : SpecificDecision} {q : ProtoDecision} (h : SpecificDecision.ofDecision ord s d = .ok x) (hq : x.toProto = .ok q) :
    sendDecision ord s d = .ok q := by
  unfold SpecificDecision.ofDecision at h
  split at h
  all_goals
    rename_i ht
    obtain ⟨es, h1, h⟩ := bind_ok h
    obtain ⟨a, h2, h⟩ := bind_ok h
    obtain ⟨b, h3, h⟩ := bind_ok h
    cases h
    obtain ⟨p, h4, hq⟩ := bind_ok hq
    obtain ⟨p', h5, hq⟩ := bind_ok hq
    cases hq
    simp only [sendDecision, ht, h1, sendState_specific h2 h4, sendState_specific h3 h5, ok_bind]

/-- A run along the transitions of a replay is told by what is sent for the replay. -/
theorem run_told {r : Recipe} {env : CompileEnv F} {j : Nat} {s : Sys F} (he : env.Perm) (hok : r.Ok (dim F))
    (hr : r.ClockTables) (hs : r.compile env 0 = .ok (s, j)) (hdim : dim F ≤ 2 ^ 32)
    {ord : List (String × Nat) → List (String × Nat)} (ho : ∀ l, (ord l).Perm l) {l l' : LocTree F} {v v' : Val}
    {path : List (Transition F × String)} (hrun : s.ts.RunVia l v path l' v') :
    ∀ {z : Set Val} {ds : List (Decision F)}, s.IsLoc l → Valid (dim F) v →
    (∀ d, TS.CanDelay l v d → delay (dim F) v d ∈ z) → Replays l z path ds →
    ∃ xs qs, specificPath ord s ds = .ok xs ∧ xs.mapM (·.toProto) = .ok qs ∧
      List.Forall₂ (fun d x => SpecificDecision.Tells r d x) ds xs ∧ s.ts.ToldRun r l v xs l' v' := by
  have hg := (Recipe.compile_accepted he hok hs).good
  induction hrun with
  | done hd =>
    intro z ds hl hv hz hrep
    cases hrep
    exact ⟨[], [], rfl, rfl, .nil, .done hd⟩
  | @step l l' v v' d t a trans path hd ha hn ht hc hrun ih =>
    intro z ds hl hv hz hrep
    cases hrep with
    | @cons _ _ _ _ dec _ ds hsome hloc hsrc hact htr hdst hdz hrest =>
      obtain ⟨htl, hgt⟩ := hg.next_ok hl ha hn t ht
      have hvd : Valid (dim F) (delay (dim F) v d) := delay_valid hv hd.1
      have hrv := hgt.run_valid hvd
      obtain ⟨x, q, tes, k1, k2, k3, k4, k5⟩ := decision_told he hok hr hs hdim ho hl ha hn ht hloc hact htr hdst
      obtain ⟨xs, qs, m1, m2, m3, m4⟩ := ih (z := SuccSet t z) htl hrv
        (fun e hce => ⟨_, hz d hd, hc.1, e, hce.1, rfl, hce.2 e hce.1 le_rfl⟩) hrest
      have hxa : x.action = a := k3.action.trans hact
      refine ⟨x :: xs, q :: qs, ?_, ?_, .cons k3 m3, .step hd ?_ ?_ ht hc ⟨?_, ?_⟩ ?_ k5 ⟨?_, ?_⟩ m4⟩
      · unfold specificPath at m1 ⊢
        rw [List.mapM_cons, k1, ok_bind, m1, ok_bind]; rfl
      · rw [List.mapM_cons, k2, ok_bind, m2, ok_bind]; rfl
      · rw [hxa]; exact ha
      · rw [hxa]; exact hn
      · have := k3.source; rwa [hloc] at this
      · refine (k3.before _ hvd).1 ?_
        rw [hsrc]; exact ⟨hz d hd, hc⟩
      · rw [hxa]; exact k4
      · have := k3.destination; rwa [hdst] at this
      · refine (k3.after _ hrv).1 ?_
        rw [hdz]
        exact ⟨_, ⟨hz d hd, hc⟩, hc.1, 0, le_rfl, by rw [delay_zero], hc.2⟩

/-- A delay before a run that is told is a delay at its beginning. -/
theorem ToldRun.delay {ts : TS F} {r : Recipe} {l l' : LocTree F} {v v' : Val} {d : ℝ}
    {path : List SpecificDecision} (hd : TS.CanDelay l v d)
    (h : ts.ToldRun r l (delay (dim F) v d) path l' v') : ts.ToldRun r l v path l' v' := by
  have key : ∀ {e : ℝ}, TS.CanDelay l (Reveaal.delay (dim F) v d) e → TS.CanDelay l v (d + e) := by
    intro e he
    refine ⟨add_nonneg hd.1 he.1, fun x h1 h2 => ?_⟩
    by_cases hx : x ≤ d
    · exact hd.2 x h1 hx
    · push Not at hx
      have := he.2 (x - d) (by linarith) (by linarith)
      rwa [delay_add, add_sub_cancel] at this
  cases h with
  | done he => rw [delay_add]; exact .done (key he)
  | step he ha hn ht hc hs hnm htk hdst h =>
    rw [delay_add] at hc hs hdst h
    exact .step (key he) ha hn ht hc hs hnm htk hdst h

/-- An execution that is told is one. -/
theorem TS.ToldRun.runFrom {ts : TS F} {r : Recipe} {l l' : LocTree F} {v v' : Val} {path : List SpecificDecision}
    (h : ts.ToldRun r l v path l' v') :
    ∀ {l₀ : LocTree F} {v₀ : Val}, ts.RunFrom l₀ v₀ l v → ts.RunFrom l₀ v₀ l' v' := by
  induction h with
  | done hd => intro _ _ h; exact .delay h hd
  | step hd ha hn ht hc _ _ _ _ _ ih => intro _ _ h; exact ih (.act (.delay h hd) ⟨ha, _, hn, _, ht, hc, rfl, rfl⟩)

/-- **C75 (part)** If a reachability query is answered with a path, then the path can be described and sent.  The
descriptions give exactly the valuations of the decisions of the path, and tell a real execution: from some valuation of
the start state, with suitable delays, the edges that are named are taken one after the other, the state before each step
is as its source says and the state after it as its destination says, and the execution ends in a location that matches
the requested one.

Missing from the full property: invariants that are lower bounds (`C14_violated_lower_bound_invariant`), and that the
execution ends with clock values the query asks for, for which see `C75_goal_partial`; for quotients the names are not
those of the edges that are taken (`C56_violated_quotient`). -/
theorem C75_path_partial {r : Recipe} {env : CompileEnv F} {j : Nat} {s : Sys F} (he : env.Perm) (hok : r.Ok (dim F))
    (hr : r.ClockTables) (hs : r.compile env 0 = .ok (s, j)) (hdim : dim F ≤ 2 ^ 32)
    {ord : List (String × Nat) → List (String × Nat)} (ho : ∀ l, (ord l).Perm l)
    (hpast : ∀ l, s.IsLoc l → PastClosed l) (zoneBounds : F → Bounds) (start goal : State F)
    (hstart : s.IsLoc start.loc) (hgoal : s.IsPattern goal.loc) (fuel : Nat) (ds : List (Decision F))
    (h : findPath zoneBounds s.ts start goal fuel = .ok (some ds)) :
    ∃ xs qs, findSpecificPath zoneBounds ord s start goal fuel = .ok (some xs) ∧
      reachabilityToProto (some xs) = .ok (.path (some qs)) ∧
      List.Forall₂ (fun d x => SpecificDecision.Tells r d x) ds xs ∧
      ∃ v ∈ den start.zone, v ∈ InvSet start.loc ∧ ∃ l' v', s.ts.ToldRun r start.loc v xs l' v' ∧
        goal.loc.id.Matches l'.id := by
  have hacc := Recipe.compile_accepted he hok hs
  have hg := hacc.good
  obtain ⟨path, l', hf, hm, hrep, hne⟩ := C14_path_replays zoneBounds s hacc start goal hstart hgoal fuel ds h
  suffices hsuf : ∃ xs qs, specificPath ord s ds = .ok xs ∧ xs.mapM (·.toProto) = .ok qs ∧
      List.Forall₂ (fun d x => SpecificDecision.Tells r d x) ds xs ∧
      ∃ v ∈ den start.zone, v ∈ InvSet start.loc ∧ ∃ v', s.ts.ToldRun r start.loc v xs l' v' by
    obtain ⟨xs, qs, h1, h2, h3, v, h4, h5, v', h6⟩ := hsuf
    refine ⟨xs, qs, ?_, ?_, h3, v, h4, h5, l', v', h6, hm⟩
    · unfold findSpecificPath
      rw [h, ok_bind]
      dsimp only
      rw [h1, ok_bind]
    · simp only [reachabilityToProto, h2, ok_bind]
  cases hf with
  | nil =>
    cases hrep
    obtain ⟨v, hv, hi⟩ := hne
    exact ⟨[], [], rfl, rfl, .nil, v, hv, hi, _, .done (d := 0) ⟨le_refl _, fun d h1 h2 => by
      rw [le_antisymm h2 h1, delay_zero]; exact hi⟩⟩
  | @cons _ _ t a trans path ha hn ht hf =>
    cases hrep with
    | @cons _ _ _ _ dec _ ds hsome hloc hsrc hact htr hdst hdz hrest =>
      obtain ⟨htl, hgt⟩ := hg.next_ok hstart ha hn t ht
      have hval' : ∀ w ∈ SuccSet t {v | v ∈ den start.zone ∧ v ∈ InvSet start.loc}, Valid (dim F) w := by
        rintro w ⟨v, hv, _, d, hd, rfl, _⟩
        exact delay_valid (hgt.run_valid (den_valid hv.1)) hd
      obtain ⟨w, ⟨v, hv, hgd, d, hd, rfl, hw⟩, v', hrun⟩ := replays_run hg hpast hf htl hval'
        (by obtain ⟨v, hv, hc⟩ := hsome
            exact ⟨_, v, hv, hc.1, 0, le_refl _, rfl, by rw [delay_zero]; exact hc.2⟩)
        (by rintro w ⟨_, _, _, _, _, _, h⟩; exact h) hrest
      have hrv := hgt.run_valid (den_valid hv.1)
      have hall : ∀ d', 0 ≤ d' → d' ≤ d →
          delay (dim F) (runUpdates t.updates v) d' ∈ InvSet t.target := by
        intro d' h1 h2
        refine hpast _ htl _ (d - d') (delay_valid hrv h1) (by linarith) ?_
        rw [delay_add]; simpa using hw
      have hc : CanTake t v := ⟨hgd, by have := hall 0 (le_refl _) hd; rwa [delay_zero] at this⟩
      have hstep : s.ts.RunVia start.loc v ((t, a) :: path) l' v' := by
        refine .step (d := 0) ⟨le_refl _, fun e h1 h2 => ?_⟩ ha hn ht ?_ ?_
        · rw [le_antisymm h2 h1, delay_zero]; exact hv.2
        · rw [delay_zero]; exact hc
        · rw [delay_zero]; exact RunVia.delay ⟨hd, hall⟩ hrun
      obtain ⟨x, q, tes, k1, k2, k3, k4, k5⟩ := decision_told he hok hr hs hdim ho hstart ha hn ht hloc hact htr hdst
      obtain ⟨xs, qs, m1, m2, m3, m4⟩ := run_told (z := SuccSet t {v | v ∈ den start.zone ∧ v ∈ InvSet start.loc})
        he hok hr hs hdim ho (RunVia.delay ⟨hd, hall⟩ hrun) htl hrv
        (fun e hce => ⟨_, hv, hgd, e, hce.1, rfl, hce.2 e hce.1 le_rfl⟩) hrest
      have hxa : x.action = a := k3.action.trans hact
      refine ⟨x :: xs, q :: qs, ?_, ?_, .cons k3 m3, v, hv.1, hv.2, v', .step (d := 0) (t := t) (trans := trans) (tes := tes)
        ⟨le_refl _, fun e h1 h2 => ?_⟩ ?_ ?_ ht ?_ ⟨?_, ?_⟩ ?_ k5 ⟨?_, ?_⟩ ?_⟩
      · unfold specificPath at m1 ⊢
        rw [List.mapM_cons, k1, ok_bind, m1, ok_bind]; rfl
      · rw [List.mapM_cons, k2, ok_bind, m2, ok_bind]; rfl
      · rw [le_antisymm h2 h1, delay_zero]; exact hv.2
      · rw [hxa]; exact ha
      · rw [hxa]; exact hn
      · rw [delay_zero]; exact hc
      · have := k3.source; rwa [hloc] at this
      · rw [delay_zero]
        refine (k3.before _ (den_valid hv.1)).1 ?_
        rw [hsrc]; exact ⟨hv, hc⟩
      · rw [hxa]; exact k4
      · have := k3.destination; rwa [hdst] at this
      · rw [delay_zero]
        refine (k3.after _ hrv).1 ?_
        rw [hdz]
        exact ⟨_, ⟨hv, hc⟩, hgd, 0, le_rfl, by rw [delay_zero], hc.2⟩
      · rw [delay_zero]; exact m4

/-- **C75 (part)** The same, and the execution ends with clock values the query asks for, if guards and invariants compare
clocks with literals and what the start state says stays true when time passes.  The missing cases are those of
`C70_reachable_partial`. -/
theorem C75_goal_partial {r : Recipe} {env : CompileEnv F} {j : Nat} {s : Sys F} (he : env.Perm) (hok : r.Ok (dim F))
    (hr : r.ClockTables) (hs : r.compile env 0 = .ok (s, j)) (hdim : dim F ≤ 2 ^ 32)
    {ord : List (String × Nat) → List (String × Nat)} (ho : ∀ l, (ord l).Perm l) (hplain : s.OfPlain)
    (hpast : ∀ l, s.IsLoc l → PastClosed l) (zoneBounds : F → Bounds) (start goal : State F)
    (hstart : s.IsLoc start.loc) (hgoal : s.IsPattern goal.loc)
    (hwait : ∀ v ∈ den start.zone, ∀ d, TS.CanDelay start.loc v d → delay (dim F) v d ∈ den start.zone)
    (hz : (zoneBounds goal.zone).Covers (dim F) (den goal.zone)) (fuel : Nat) (ds : List (Decision F))
    (h : findPath zoneBounds s.ts start goal fuel = .ok (some ds)) :
    ∃ xs qs, findSpecificPath zoneBounds ord s start goal fuel = .ok (some xs) ∧
      reachabilityToProto (some xs) = .ok (.path (some qs)) ∧
      List.Forall₂ (fun d x => SpecificDecision.Tells r d x) ds xs ∧
      ∃ v ∈ den start.zone, v ∈ InvSet start.loc ∧ ∃ l' v', s.ts.ToldRun r start.loc v xs l' v' ∧
        goal.loc.id.Matches l'.id ∧ v' ∈ den goal.zone := by
  have hacc := Recipe.compile_accepted he hok hs
  obtain ⟨path, l', hf, hm, hrep, hne⟩ := C14_path_replays zoneBounds s hacc start goal hstart hgoal fuel ds h
  obtain ⟨v, hv, hi, path', l, v', hrun, hlab, hm', hv'⟩ :=
    C70_reachable_partial zoneBounds s hplain hpast start goal hstart hgoal hz fuel ds h
  have hpp : path' = path := by
    have hinj : Function.Injective fun p : Transition F × String => (some p.1, p.2) := by
      rintro ⟨a, b⟩ ⟨c, d⟩ he
      simp only [Prod.mk.injEq, Option.some.injEq] at he
      rw [he.1, he.2]
    exact List.map_injective_iff.2 hinj (hlab.symm.trans hrep.labels)
  subst hpp
  obtain ⟨xs, qs, h1, h2, h3, h4⟩ := run_told (z := {v | v ∈ den start.zone ∧ v ∈ InvSet start.loc})
    he hok hr hs hdim ho hrun hstart (den_valid hv) (fun d hd => ⟨hwait v hv d hd, hd.2 d hd.1 le_rfl⟩) hrep
  refine ⟨xs, qs, ?_, ?_, h3, v, hv, hi, l, v', h4, hm', hv'⟩
  · unfold findSpecificPath
    rw [h, ok_bind]
    dsimp only
    rw [h1, ok_bind]
  · simp only [reachabilityToProto, h2, ok_bind]

section
variable {Z : Nat → Type} [∀ d, ZoneLib (Z d)]

/-- **C75 (part)** From the query to the path that is sent: if `reachability: S -> goal` is answered with a path, the
path tells an execution of the system that starts in its initial location with all clocks zero and ends in a state as the
goal says.  The conditions are those of `C64_reachability_partial`. -/
theorem C75_answer_partial (hZ : ∀ d, dim (Z d) = d + 1) (X : QueryEnv Z) (hX : X.Fair)
    (load : String → Res Component) (hload : ∀ n c, load n = .ok c → c.decls.Numbered) (e : SysExpr) (r : Recipe) (d : Nat)
    (q : Option Nat) (hr : getRecipes load [e] 0 none = .ok ([r], d, q)) (hc : r.Searchable d) (hd : d < 2 ^ 32)
    (hpl : ∀ c ∈ r.components, c.Plain ∧ c.Deadlines (d + 1)) (goal : StateExpr) (hg : goal.Plain r)
    (hz : ∀ z : Z d, (∀ v, v ∈ den z ↔ Valid (d + 1) v ∧ goal.SatClocks r v) → (X.zoneBounds d z).Covers (d + 1) (den z))
    (ds : List (Decision (Z d)))
    (h : X.run load (.reachability e none goal) = .ok (.reachability d (some ds)))
    {ord : List (String × Nat) → List (String × Nat)} (ho : ∀ l, (ord l).Perm l) :
    ∃ (s : Sys (Z d)) (xs : List SpecificDecision) (qs : List ProtoDecision), r.Means s ∧ specificPath ord s ds = .ok xs ∧
      reachabilityToProto (some xs) = .ok (.path (some qs)) ∧
      List.Forall₂ (fun d x => SpecificDecision.Tells r d x) ds xs ∧
      ∃ l₀ l v, s.ts.initialLoc = .ok (some l₀) ∧ zeroVal ∈ InvSet l₀ ∧ s.ts.ToldRun r l₀ zeroVal xs l v ∧ r.Shape l.id ∧
        goal.Sat r l.id v := by
  have hok := Recipe.Searchable.ok hZ hload hr hc
  obtain ⟨t, j, st, en, p, h1, h2, h3, h4, h5, hA⟩ := X.reachability_form hr h
  cases hA
  have hperm := (hX.compiled d).2.2.1
  have ht : r.Means t := ⟨_, _, _, hperm, h1⟩
  obtain ⟨ha, hloc, hp⟩ := C46_query _ hperm r hok none goal t st en h4
  have hst : t.ts.initialState = .ok (some st) := by
    unfold queryStart at h2
    obtain ⟨o, h6, h2⟩ := bind_ok h2
    cases o with
    | none => cases h2
    | some x => cases h2; exact h6
  obtain ⟨hpl', hpast⟩ := Recipe.compile_ofPlain hperm hok
    (fun c hm => ⟨by rw [hZ]; exact (hc.comps c hm).1.clear, by rw [hZ]; exact hpl c hm⟩) h1
  have hcov : (X.zoneBounds d en.zone).Covers (dim (Z d)) (den en.zone) := by
    rw [hZ]
    refine hz _ fun v => ?_
    rw [← hZ]
    exact getState_zone hok hg h3 v
  have hct : r.ClockTables := fun c hm => (hc.comps c hm).1.names
  obtain ⟨o, h6, h7⟩ := ha.good.initial
  cases o with
  | none => exact absurd hst (by
      show t.initialState ≠ _
      intro hc
      unfold Sys.initialState at hc
      rw [h6] at hc; cases hc)
  | some l₀ =>
    have h6' : t.ts.initialLoc = .ok (some l₀) := h6
    rcases Sys.initialState_spec h6' with ⟨hn, _⟩ | ⟨z, hz', hd'⟩
    · rw [hn] at hst; cases hst
    rw [hz'] at hst; cases hst
    have hinit : ∀ v, v ∈ den z ↔ (∃ e : ℝ, 0 ≤ e ∧ v = delay (dim (Z d)) zeroVal e) ∧ v ∈ InvSet l₀ := by
      intro v
      rw [hd']
      exact ⟨fun h => ⟨init_is_delay h.1, h.2⟩, fun ⟨⟨e, he, h⟩, hi⟩ => ⟨by rw [h]; exact Sys.delay_zero_init he, hi⟩⟩
    obtain ⟨xs, qs, g1, g2, g3, v₀, hv₀, hi, l, v, hrun, hm, hv⟩ := C75_goal_partial hperm hok hct h1
      (by rw [hZ]; omega) ho hpl' hpast (X.zoneBounds d) _ en hloc hp
      (by
        intro v hv e he
        obtain ⟨⟨e', he', rfl⟩, _⟩ := (hinit v).1 hv
        rw [delay_add]
        exact (hinit _).2 ⟨⟨_, add_nonneg he' he.1, rfl⟩, by rw [← delay_add]; exact he.2 e he.1 le_rfl⟩)
      hcov X.fuel ds h5
    have hsp : specificPath ord t ds = .ok xs := by
      unfold findSpecificPath at g1
      rw [h5, ok_bind] at g1
      obtain ⟨ys, g4, g5⟩ := bind_ok g1
      cases g5; exact g4
    obtain ⟨⟨e', he', rfl⟩, _⟩ := (hinit v₀).1 hv₀
    have hall : ∀ x, 0 ≤ x → x ≤ e' → delay (dim (Z d)) zeroVal x ∈ InvSet l₀ := by
      intro x h1 h2
      refine hpast _ (h7 _ rfl) _ (e' - x) (delay_valid Sys.zeroVal_valid h1) (by linarith) ?_
      rw [delay_add]; simpa using hi
    have h0 : zeroVal ∈ InvSet l₀ := by
      have := hall 0 (le_refl _) he'
      rwa [delay_zero] at this
    have hlv := ha.good.run hloc (den_valid hv₀) (hrun.runFrom .refl)
    have hsh := Recipe.shape_of_matches hperm h1 hp hlv.1 hm
    exact ⟨t, xs, qs, ht, hsp, g2, g3, l₀, l, v, h6', h0, ToldRun.delay ⟨he', hall⟩ hrun, hsh,
      (C46_meaning_partial _ hperm r hok t 0 j h1 goal hg en h3 l.id hsh v hlv.2).1 ⟨hm, hv⟩⟩

end

/-! ## Concrete cases -/

def exLoadA : String → Res Component := fun n => if n = "A" then .ok exA else .error (.err "unknown")

theorem exLoadA_numbered (n : String) (c : Component) (h : exLoadA n = .ok c) : c.decls.Numbered := by
  unfold exLoadA at h
  split at h
  · cases h; exact .refl _
  · cases h

/-- `A.L1 && A.x > 3` -/
def exLater : StateExpr := .and [.location ⟨"A", none, "L1"⟩, .cmp .gt (.clock ⟨"A", none, "x"⟩) (.number 3)]

theorem exLater_boxed : exLater.Boxed (.component exA none) := by
  refine .and fun e he => ?_
  rcases List.mem_cons.1 he with rfl | he
  · exact .location ⟨exA, List.mem_singleton.2 rfl, rfl⟩
  · rw [List.mem_singleton.1 he]; exact .cmp _ _ _

theorem exLater_clocks (v : Val) : exLater.SatClocks (.component exA none) v ↔ (3 : ℝ) < v 1 := by
  have hx : (Recipe.component exA none).HasClock ⟨"A", none, "x"⟩ 1 := ⟨exA, List.mem_singleton.2 rfl, rfl, by decide⟩
  rw [exLater, StateExpr.SatClocks, allClocks_iff]
  constructor
  · intro h
    have := h _ (List.mem_cons_of_mem _ (List.mem_singleton.2 rfl))
    rw [StateExpr.SatClocks] at this
    obtain ⟨x, y, hx', hy, hr⟩ := this
    cases hx' with
    | clock hi =>
      cases hy
      rw [hasClock_unique (by decide) hi hx] at hr
      exact_mod_cast hr
  · intro h e he
    rcases List.mem_cons.1 he with rfl | he
    · rw [StateExpr.SatClocks]; trivial
    · rw [List.mem_singleton.1 he, StateExpr.SatClocks]
      exact ⟨_, _, .clock hx, .number 3, by exact_mod_cast h⟩

def pathQueries : QueryEnv FedD := { plainQueries false with zoneBounds := fun _ _ => boundOf 1 3 }

theorem pathQueries_fair : pathQueries.Fair :=
  let h := plainQueries_fair (Z := FedD) false
  ⟨h.compiled, h.acts, h.checks, h.outs, h.ins⟩

theorem exA_searchable : (Recipe.component exA none).Searchable 1 := by
  have kx : IsClock exA.decls (.var "x") 1 := .inr ⟨"x", rfl, by decide⟩
  refine ⟨fun c hc => ?_⟩
  rw [List.mem_singleton.1 hc]
  refine ⟨⟨⟨Component.ok_of_okB (by decide), ?_, ?_, by decide +kernel, by decide +kernel, by decide +kernel⟩, ⟨?_, ?_⟩,
    by decide⟩, ?_⟩
  pick_goal 5
  · intro e he us hus
    simp only [exA, List.mem_cons, List.not_mem_nil, or_false] at he
    rcases he with rfl | rfl <;> cases hus
    decide
  all_goals (
    intro e he g hg
    simp only [exA, List.mem_cons, List.not_mem_nil, or_false] at he
    rcases he with rfl | rfl <;> cases hg)
  · exact .posConst (.chain (.clock kx)) rfl
  · exact .posConst (.chain (.clock kx)) rfl
  all_goals simp [BoolE.NamesOnly, Arith.NamesOnly]

theorem exA_deadlines : exA.Deadlines 2 := by
  intro l hl v d hv hd h
  simp only [exA, List.mem_cons, List.not_mem_nil, or_false] at hl
  rcases hl with rfl | rfl
  · exact trivial
  · obtain ⟨a, b, h1, h2, h3⟩ := h
    refine ⟨v 1, b, rfl, h2, ?_⟩
    have : a = v 1 + d := by
      cases h1
      simp [delay]
    rw [this] at h3
    linarith

theorem exLater_bounds (z : FedD 1) (hz : ∀ v, v ∈ den z ↔ Valid (1 + 1) v ∧ exLater.SatClocks (.component exA none) v) :
    (pathQueries.zoneBounds 1 z).Covers (1 + 1) (den z) := by
  intro v w hv hw he hm
  rw [hz, exLater_clocks] at hm ⊢
  refine ⟨hw, ?_⟩
  rcases he 1 with he | he
  · rw [← he]; exact hm.2
  · have := (he 3 rfl).2
    push_cast at this
    linarith

/-- The messages of the path in an answer. -/
def answeredPath : Res (QueryOutcome FedD) → Option (Nat × List (String × List SpecificEdge))
  | .ok (.reachability 1 (some ds)) =>
    match (Recipe.component exA none).compile (envK (FedD 1)) 0 with
    | .ok (s, _) =>
      match ds.mapM (sendDecision id s) with
      | .ok qs => some (ds.length, qs.map fun q => (q.action, q.edges))
      | _ => none
    | _ => none
  | _ => none

/-- Non-vacuity: the query `reachability: A -> A.L1 && A.x > 3` is answered with a path of one step, sent as the edge `e0`
of instance 0 of `A`; it tells an execution that ends in `L1` with `x` greater than 3. -/
example : answeredPath (pathQueries.run exLoadA (.reachability (.component "A" none) none exLater)) =
      some (1, [("go", [⟨⟨"A", 0⟩, "e0"⟩])]) ∧
    ∃ (s : Sys (FedD 1)) (xs : List SpecificDecision) (l₀ l : LocTree (FedD 1)) (v : Val), xs.length = 1 ∧
      s.ts.ToldRun (.component exA none) l₀ zeroVal xs l v ∧ 3 < v 1 := by
  have h : answeredPath (pathQueries.run exLoadA (.reachability (.component "A" none) none exLater)) =
      some (1, [("go", [⟨⟨"A", 0⟩, "e0"⟩])]) := by decide +kernel
  refine ⟨h, ?_⟩
  revert h
  generalize hx : pathQueries.run exLoadA (.reachability (.component "A" none) none exLater) = x
  intro h
  unfold answeredPath at h
  split at h
  · next ds =>
    obtain ⟨s, xs, qs, _, _, _, h3, l₀, l, v, _, _, h4, hsh, h5⟩ := C75_answer_partial dim_fedD pathQueries pathQueries_fair
      exLoadA exLoadA_numbered (.component "A" none) _ 1 none rfl exA_searchable (by decide)
      (fun c hc => by rw [List.mem_singleton.1 hc]; exact ⟨Component.plain_of_plainB (by decide), exA_deadlines⟩)
      exLater exLater_boxed.plain exLater_bounds ds hx (ord := id) (fun _ => .refl _)
    refine ⟨s, xs, l₀, l, v, ?_, h4, (exLater_clocks v).1 ?_⟩
    · rw [← h3.length_eq]
      split at h
      · split at h
        · simp only [Option.some.injEq, Prod.mk.injEq] at h
          exact h.1
        · cases h
      · cases h
    · simp only [exLater, StateExpr.Sat, StateExpr.SatAll] at h5
      simp only [exLater, StateExpr.SatClocks, StateExpr.AllClocks]
      exact ⟨trivial, h5.2⟩
  · cases h

end Reveaal
