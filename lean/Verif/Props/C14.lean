import Verif.Props.C15
import Verif.Props.C06

/-! # C14: a reported path is a real execution -/

namespace Reveaal
open ZoneLib
variable {F : Type} [ZoneLib F]

/-- A decision that was made for a transition. -/
theorem decision_some {s : State F} {t : Transition F} {a : String} {d : Decision F}
    (hu : UpdatesOk t.updates (dim F)) (h : Decision.fromStateTransition s t a = .ok (some d)) :
    (∃ v ∈ den s.zone, CanTake t v) ∧ d.state.loc = s.loc ∧
      den d.state.zone = {v | v ∈ den s.zone ∧ CanTake t v} ∧ d.action = a ∧ d.transition = some t ∧
      d.nextState.loc = t.target ∧ den d.nextState.zone = SuccSet t {v | v ∈ den s.zone ∧ CanTake t v} := by
  unfold Decision.fromStateTransition at h
  dsimp only at h
  split at h
  · rename_i he
    rw [Bool.not_eq_true', isEmpty_false_iff] at he
    obtain ⟨v, hv⟩ := he
    rw [den_inter] at hv
    have hc : NoConflict t.updates := by
      by_contra hc
      have := C06_conflict_empty t hu hc
      rw [this] at hv; exact hv.2
    have hz : den (inter s.zone t.allowed) = {v | v ∈ den s.zone ∧ CanTake t v} := by
      ext w; rw [den_inter]; exact and_congr_right fun _ => mem_allowed hu hc
    split at h
    · rename_i s' hs'
      cases h
      obtain ⟨h1, h2, _⟩ := (C05_use_transition_alt t _ hu).1 s' hs'
      dsimp only at h2
      rw [hz] at h2
      exact ⟨⟨v, hv.1, (mem_allowed hu hc).1 hv.2⟩, rfl, hz, rfl, rfl, h1, h2⟩
    · cases h
  · cases h

theorem replay_spec {s : Sys F} (hs : s.Good) {l l' : LocTree F} {path : List (Transition F × String)}
    (hf : s.ts.Follows l path l') : ∀ {z : F} {ds : List (Decision F)}, s.IsLoc l →
    replay path ⟨l, z⟩ = .ok ds → Replays l (den z) path ds := by
  induction hf with
  | nil l => intro z ds _ h; cases h; exact .nil _ _
  | @cons l l' t a trans path ha hn ht hf ih =>
    intro z ds hl h
    obtain ⟨htl, hg⟩ := hs.next_ok hl ha hn t ht
    rw [replay] at h
    obtain ⟨o, h1, h⟩ := bind_ok h
    cases o with
    | none => cases h
    | some d =>
      obtain ⟨ds', h2, h⟩ := bind_ok h
      cases h
      obtain ⟨⟨v, hv, hc⟩, e1, e2, e3, e4, e5, e6⟩ := decision_some hg.upd h1
      have hu : (t.useTransition ⟨l, z⟩).1 = true :=
        (C05_use_transition t ⟨l, z⟩ hg.upd).1.2 ⟨_, v, hv, hc.1, 0, le_refl _, rfl, by
          rw [delay_zero]; exact hc.2⟩
      obtain ⟨hloc, hz⟩ := (C05_use_transition t ⟨l, z⟩ hg.upd).2 hu
      generalize hgen : (t.useTransition ⟨l, z⟩).2 = st at h2 hloc hz
      obtain ⟨sl, sz⟩ := st
      dsimp only at hloc hz
      subst hloc
      refine .cons ⟨v, hv, hc⟩ e1 e2 e3 e4 e5 e6 ?_
      rw [← hz]
      exact ih htl h2

/-- If a reachability query answers with a path, then the path is a sequence of transitions of the system
that starts in the start location and ends in a location matching the requested one, and it can be
replayed step by step from the start state: every decision of the answer is one that is possible there,
with exactly the valuations that can take it. -/
theorem C14_path_replays (zoneBounds : F → Bounds) (s : Sys F) (hs : s.Accepted) (start goal : State F)
    (hstart : s.IsLoc start.loc) (hgoal : s.IsPattern goal.loc) (fuel : Nat) (ds : List (Decision F))
    (h : findPath zoneBounds s.ts start goal fuel = .ok (some ds)) :
    ∃ path l', s.ts.Follows start.loc path l' ∧ goal.loc.id.Matches l'.id ∧
      Replays start.loc {v | v ∈ den start.zone ∧ v ∈ InvSet start.loc} path ds ∧
      ∃ v, v ∈ den start.zone ∧ v ∈ InvSet start.loc := by
  have hg := hs.good
  unfold findPath at h
  split at h
  · cases h
  · unfold reachabilitySearch at h
    dsimp only at h
    rcases searchLoop_spec hg (fun a ha => mem_sortedActions.1 ha) fuel _ [] _
      (searchInv_init (s := s) (start := start.applyInvariants) hstart) h with ⟨h', _⟩ | ⟨sp, p, h', hl, hr, hf, hp, ho⟩
    · cases h'
    · cases h'
      have hden : den start.applyInvariants.zone = {v | v ∈ den start.zone ∧ v ∈ InvSet start.loc} := by
        ext v; exact mem_applyInvariants
      have hrep := replay_spec hg hf (z := start.applyInvariants.zone) hstart hp
      rw [hden] at hrep
      obtain ⟨b, hb, hbm⟩ := C35_match_partial s hs sp.dest.loc goal.loc hl hgoal
      unfold reachedEnd at hr
      cases b with
      | false => rw [hb] at hr; cases hr
      | true =>
        refine ⟨_, _, hf, hbm.1 rfl, hrep, ?_⟩
        by_cases ht : sp.taken = []
        · rw [hb] at hr
          simp only [ok_bind, if_true, Except.ok.injEq] at hr
          obtain ⟨v, hv, _⟩ := (hasIntersection_iff _ _).1 hr
          rw [ho ht, hden] at hv
          exact ⟨v, hv⟩
        · have hne : sp.taken.reverse ≠ [] := by simpa using ht
          generalize sp.taken.reverse = path at hrep hne
          cases hrep with
          | nil => exact absurd rfl hne
          | cons hsome =>
            obtain ⟨v, hv, _⟩ := hsome
            exact ⟨v, hv⟩

/-- A delay before a run is a delay at its beginning. -/
theorem RunVia.delay {ts : TS F} {l l' : LocTree F} {v v' : Val} {d : ℝ}
    {path : List (Transition F × String)} (hd : TS.CanDelay l v d)
    (h : ts.RunVia l (delay (dim F) v d) path l' v') : ts.RunVia l v path l' v' := by
  have key : ∀ {e : ℝ}, TS.CanDelay l (Reveaal.delay (dim F) v d) e → TS.CanDelay l v (d + e) := by
    intro e he
    refine ⟨add_nonneg hd.1 he.1, fun x h1 h2 => ?_⟩
    by_cases hx : x ≤ d
    · exact hd.2 x h1 hx
    · push Not at hx
      have := he.2 (x - d) (by linarith) (by linarith)
      rwa [delay_add, add_sub_cancel] at this
  cases h with
  | done he => rw [delay_add]; exact .done (key he)
  | step he ha hn ht hc h => rw [delay_add] at hc h; exact .step (key he) ha hn ht hc h

theorem replays_run {s : Sys F} (hs : s.Good) (hpast : ∀ l, s.IsLoc l → PastClosed l)
    {l l' : LocTree F} {path : List (Transition F × String)} (hf : s.ts.Follows l path l') :
    ∀ {z : Set Val} {ds : List (Decision F)}, s.IsLoc l → (∀ v ∈ z, Valid (dim F) v) →
    z.Nonempty → (∀ v ∈ z, v ∈ InvSet l) →
    Replays l z path ds → ∃ v ∈ z, ∃ v', s.ts.RunVia l v path l' v' := by
  induction hf with
  | nil l =>
    intro z ds _ _ hne hinv _
    obtain ⟨v, hv⟩ := hne
    refine ⟨v, hv, _, .done (d := 0) ⟨le_refl _, fun d h1 h2 => ?_⟩⟩
    rw [le_antisymm h2 h1, delay_zero]; exact hinv v hv
  | @cons l l' t a trans path ha hn ht hf ih =>
    intro z ds hl hval _ hinv hr
    cases hr with
    | @cons _ _ _ _ _ _ ds' hsome _ _ _ _ _ _ hrest =>
      obtain ⟨htl, hg⟩ := hs.next_ok hl ha hn t ht
      have hval' : ∀ w ∈ SuccSet t z, Valid (dim F) w := by
        rintro w ⟨v, hv, _, d, hd, rfl, _⟩
        exact delay_valid (hg.run_valid (hval v hv)) hd
      obtain ⟨w, ⟨v, hv, hgd, d, hd, rfl, hw⟩, v', hrun⟩ := ih htl hval'
        (by obtain ⟨v, hv, hc⟩ := hsome
            exact ⟨_, v, hv, hc.1, 0, le_refl _, rfl, by rw [delay_zero]; exact hc.2⟩)
        (by rintro w ⟨_, _, _, _, _, _, h⟩; exact h) hrest
      have hrv := hg.run_valid (hval v hv)
      have hall : ∀ d', 0 ≤ d' → d' ≤ d →
          delay (dim F) (runUpdates t.updates v) d' ∈ InvSet t.target := by
        intro d' h1 h2
        refine hpast _ htl _ (d - d') (delay_valid hrv h1) (by linarith) ?_
        rw [delay_add]; simpa using hw
      refine ⟨v, hv, v', .step (d := 0) ⟨le_refl _, fun e h1 h2 => ?_⟩ ha hn ht ?_ ?_⟩
      · rw [le_antisymm h2 h1, delay_zero]; exact hinv v hv
      · rw [delay_zero]
        refine ⟨hgd, ?_⟩
        have := hall 0 (le_refl _) hd
        rwa [delay_zero] at this
      · rw [delay_zero]
        exact RunVia.delay ⟨hd, hall⟩ hrun

/-- The decisions of a replay show the transitions of the path. -/
theorem Replays.labels {l : LocTree F} {z : Set Val} {path : List (Transition F × String)}
    {ds : List (Decision F)} (h : Replays l z path ds) :
    ds.map (fun d => (d.transition, d.action)) = path.map fun p => (some p.1, p.2) := by
  induction h with
  | nil => rfl
  | cons _ _ _ hact htr _ _ _ ih => rw [List.map_cons, List.map_cons, ih, hact, htr]

/-- If every invariant is an upper bound on elapsed time, a reported path is a real timed execution: from
some valuation of the start state the transitions of the answer can be taken one after the other, with
suitable delays in between, and the run ends in a location matching the requested one.

Missing for the full property: invariants that are lower bounds, for which the claim is false
(`C14_violated_lower_bound_invariant`). -/
theorem C14_path_is_execution_partial (zoneBounds : F → Bounds) (s : Sys F) (hs : s.Accepted)
    (hpast : ∀ l, s.IsLoc l → PastClosed l) (start goal : State F)
    (hstart : s.IsLoc start.loc) (hgoal : s.IsPattern goal.loc) (fuel : Nat) (ds : List (Decision F))
    (h : findPath zoneBounds s.ts start goal fuel = .ok (some ds)) :
    ∃ v ∈ den start.zone, v ∈ InvSet start.loc ∧ ∃ path l' v', s.ts.RunVia start.loc v path l' v' ∧
      ds.map (fun d => (d.transition, d.action)) = path.map (fun p => (some p.1, p.2)) ∧
      goal.loc.id.Matches l'.id := by
  obtain ⟨path, l', hf, hm, hr, hne⟩ := C14_path_replays zoneBounds s hs start goal hstart hgoal fuel ds h
  obtain ⟨v, hv, v', hrun⟩ := replays_run hs.good hpast hf hstart (fun v hv => den_valid hv.1) hne
    (fun v hv => hv.2) hr
  exact ⟨v, hv.1, hv.2, path, l', v', hrun, hr.labels, hm⟩

/-- A run along transitions is a run. -/
theorem TS.RunVia.runFrom {ts : TS F} {l l' : LocTree F} {v v' : Val}
    {path : List (Transition F × String)} (h : ts.RunVia l v path l' v') :
    ∀ {l₀ : LocTree F} {v₀ : Val}, ts.RunFrom l₀ v₀ l v → ts.RunFrom l₀ v₀ l' v' := by
  induction h with
  | done hd => intro _ _ h; exact .delay h hd
  | step hd ha hn ht hc _ ih => intro _ _ h; exact ih (.act (.delay h hd) ⟨ha, _, hn, _, ht, hc, rfl, rfl⟩)

/-- Some path was found. -/
def found (r : Res (Option (List (Decision Fed4)))) (n : Nat) : Bool :=
  match r with
  | .ok (some ds) => ds.length == n
  | _ => false

theorem found_eq {r : Res (Option (List (Decision Fed4)))} {n : Nat} (h : found r n = true) :
    ∃ ds, r = .ok (some ds) ∧ ds.length = n := by
  unfold found at h
  split at h
  · exact ⟨_, rfl, by simpa using h⟩
  · cases h

/-- Non-vacuity: `A` has only upper bounds as invariants, and the search finds the way to `L1`. -/
example : (∀ l, sysA.IsLoc l → PastClosed l) ∧ ∃ (start goal : State Fed4) (ds : List (Decision Fed4)),
    sysA.IsLoc start.loc ∧ sysA.IsPattern goal.loc ∧
    findPath noBounds sysA.ts start goal 10 = .ok (some ds) ∧ ds.length = 1 := by
  let l0 : LocTree Fed4 := .leaf (.simple "L0") none .initial
  let l1 : LocTree Fed4 := .leaf (.simple "L1") (some (constrain univ 1 0 (.LE 5))) .normal
  have hl1 : sysA.IsLoc l1 := ⟨(.simple "L1", l1), List.mem_cons_of_mem _ List.mem_cons_self, rfl⟩
  constructor
  · rintro l ⟨p, hp, rfl⟩
    have hp : p ∈ [(LocId.simple "L0", l0), (.simple "L1", l1)] := hp
    rcases List.mem_cons.1 hp with rfl | hp
    · intro v d _ _ _ i hi; cases hi
    · rw [List.mem_singleton] at hp; subst hp
      intro v d hv hd h i hi
      have := h i hi
      cases hi
      rw [den_constrain _ _ _ _ (by decide) (by decide), den_univ] at this ⊢
      refine ⟨hv, ?_⟩
      have h2 := this.2
      simp only [Ineq.Sat, delay, dim_fed4] at h2 ⊢
      norm_num at h2 ⊢
      linarith
  · obtain ⟨ds, h1, h2⟩ := found_eq (r := findPath noBounds sysA.ts ⟨l0, init⟩ ⟨l1, univ⟩ 10) (n := 1)
      (by decide +kernel)
    exact ⟨⟨l0, init⟩, ⟨l1, univ⟩, ds, ⟨(.simple "L0", l0), List.mem_cons_self, rfl⟩, .inr hl1, h1, h2⟩

theorem matches_simple {a b : String} (h : (LocId.simple a).Matches (.simple b)) : a = b := by
  generalize h1 : LocId.simple a = x at h
  generalize h2 : LocId.simple b = y at h
  cases h <;> simp_all

/-- `L1` may only be entered when `x ≥ 2`, and `y` is reset then. -/
def exLower : Component := ⟨"T", ⟨[], [("x", 1), ("y", 2)]⟩,
  [⟨"L0", none, .initial, "NORMAL"⟩, ⟨"L1", some (.ge (.var "x") (.int 2)), .normal, "NORMAL"⟩,
   ⟨"L2", none, .normal, "NORMAL"⟩],
  [⟨"e", "L0", "L1", .input, none, some [⟨"y", .int 0⟩], "a"⟩,
   ⟨"f", "L1", "L2", .input, some (.and (.le (.var "x") (.int 2)) (.ge (.var "y") (.int 2))), none, "b"⟩]⟩

/-- The full property is false for invariants that are lower bounds: the search answers with a path to
`L2`, but no execution from the initial state gets there. -/
theorem C14_violated_lower_bound_invariant :
    ∃ (s : Sys Fed4) (start goal : State Fed4), s.Accepted ∧ s.ts.initialState = .ok (some start) ∧
      s.IsPattern goal.loc ∧ (∃ ds, findPath noBounds s.ts start goal 10 = .ok (some ds)) ∧
      ∀ v₀ ∈ den start.zone, ∀ l v, s.ts.RunFrom start.loc v₀ l v → ¬ goal.loc.id.Matches l.id := by
  let c : CompComp Fed4 := getOk (CompComp.compile id exLower 0) (by decide +kernel)
  let l0 : LocTree Fed4 := .leaf (.simple "L0") none .initial
  let l1 : LocTree Fed4 := .leaf (.simple "L1") (some (constrain univ 0 1 (.LE (-2)))) .normal
  let l2 : LocTree Fed4 := .leaf (.simple "L2") none .normal
  let g : Fed4 := inter (constrain univ 1 0 (.LE 2)) (constrain univ 0 2 (.LE (-2)))
  let e : Transition Fed4 := ⟨.simple "e", univ, l1, [⟨2, 0⟩]⟩
  let f : Transition Fed4 := ⟨.simple "f", g, l2, []⟩
  have hacc : (Sys.comp c).Accepted :=
    .comp (Component.ok_of_okB (by decide)) (fun _ => .refl _) (getOk_eq _)
  have hn : ∀ l a trans, (l = l0 ∨ l = l1) → (Sys.comp c).ts.hasAction a = true →
      (Sys.comp c).ts.next l a = .ok trans → ∀ t ∈ trans, (l = l0 ∧ t = e) ∨ (l = l1 ∧ t = f) := by
    intro l a trans hl ha h t ht
    have ha : a = "a" ∨ a = "b" := by
      have h1 : (Sys.comp c).ts.inputs = ["a", "b"] := by decide +kernel
      have h2 : (Sys.comp c).ts.outputs = [] := by decide +kernel
      unfold TS.hasAction at ha
      rw [h1, h2] at ha
      simpa using ha
    rcases hl with rfl | rfl <;> rcases ha with rfl | rfl
    · have : (Sys.comp c).ts.next l0 "a" = .ok [e] := rfl
      rw [this] at h; cases h; exact .inl ⟨rfl, List.mem_singleton.1 ht⟩
    · have : (Sys.comp c).ts.next l0 "b" = .ok [] := rfl
      rw [this] at h; cases h; cases ht
    · have : (Sys.comp c).ts.next l1 "a" = .ok [] := rfl
      rw [this] at h; cases h; cases ht
    · have : (Sys.comp c).ts.next l1 "b" = .ok [f] := rfl
      rw [this] at h; cases h; exact .inr ⟨rfl, List.mem_singleton.1 ht⟩
  refine ⟨.comp c, ⟨l0, init⟩, ⟨l2, univ⟩, hacc, rfl, .inr ⟨(.simple "L2", l2),
    List.mem_cons_of_mem _ (List.mem_cons_of_mem _ List.mem_cons_self), rfl⟩, ?_, ?_⟩
  · obtain ⟨ds, h, _⟩ := found_eq (r := findPath noBounds (Sys.comp c).ts ⟨l0, init⟩ ⟨l2, univ⟩ 10) (n := 2)
      (by decide +kernel)
    exact ⟨ds, h⟩
  · intro v₀ hv₀ l v hrun
    have key : l = l0 ∨ (l = l1 ∧ v 2 + 2 ≤ v 1) := by
      induction hrun with
      | refl => exact .inl rfl
      | @delay l v d h hd ih =>
        rcases ih with h | ⟨h1, h2⟩
        · exact .inl h
        · refine .inr ⟨h1, ?_⟩
          simp only [delay, dim_fed4]; norm_num; linarith
      | @act l v a l' v' h hact ih =>
        obtain ⟨ha, trans, htr, t, ht, hc, rfl, rfl⟩ := hact
        rcases hn l a trans (ih.imp id And.left) ha htr t ht with ⟨rfl, rfl⟩ | ⟨rfl, rfl⟩
        · refine .inr ⟨rfl, ?_⟩
          have h := hc.2 _ rfl
          rw [den_constrain _ _ _ _ (by decide) (by decide), den_univ] at h
          have h2 := h.2
          have h0 := h.1.1
          simp only [Ineq.Sat, e, runUpdates, assign] at h2 h0 ⊢
          norm_num at h2 h0 ⊢
          linarith
        · exfalso
          rcases ih with ih | ⟨_, ih⟩
          · have := congrArg LocTree.id ih
            simp [LocTree.id, l0, l1] at this
          · have hg : v ∈ den g := hc.1
            rw [den_inter, den_constrain _ _ _ _ (by decide) (by decide),
              den_constrain _ _ _ _ (by decide) (by decide)] at hg
            have h1 := hg.1.2
            have h2 := hg.2.2
            have h0 := (den_valid hg.1.1).1
            simp only [Ineq.Sat] at h1 h2
            norm_num at h1 h2
            linarith
    rcases key with rfl | ⟨rfl, _⟩
    · show ¬ (LocId.simple "L2").Matches (.simple "L0")
      intro h; have := matches_simple h; simp at this
    · show ¬ (LocId.simple "L2").Matches (.simple "L1")
      intro h; have := matches_simple h; simp at this

end Reveaal
