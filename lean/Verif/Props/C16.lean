import Verif.Props.C17
import Verif.Lemmas.Convex

/-! # C16: a positive refinement verdict is right -/

namespace Reveaal
open ZoneLib
variable {F : Type} [ZoneLib F]

namespace Refine

/-- What the comparison of one action gives for one valuation: a move of the follower such that all delays
of the left side afterwards are delays of the right side, inside covered pairs. -/
theorem compared_step {ts1 ts2 : TS F} {X : List (StatePair F)} {tr1 tr2 : List (Transition F)}
    {p : StatePair F} {b : Bool} (hcmp : Compared ts1 ts2 X tr1 tr2 p b) {C D : List Nat}
    (hdis : ∀ i ∈ C, i ∉ D) (h1 : ∀ t ∈ tr1, GoodTrans C t) (h2 : ∀ t ∈ tr2, GoodTrans D t) {u : Val}
    (hu : u ∈ den p.zone) {t1 : Transition F} (ht1 : t1 ∈ tr1) (hn : NoConflict t1.updates)
    (hc : CanTake t1 u) :
    ∃ t2 ∈ tr2, CanTake t2 u ∧
      ∀ d, TS.CanDelay (if b then t1.target else t2.target)
          (runUpdates t2.updates (runUpdates t1.updates u)) d →
        TimeConvex (if b then t2.target else t1.target) →
        TS.CanDelay (if b then t2.target else t1.target)
          (runUpdates t2.updates (runUpdates t1.updates u)) d ∧
        ∃ q ∈ X, q.l1.id = (if b then t1.target else t2.target).id ∧
          q.l2.id = (if b then t2.target else t1.target).id ∧
          delay (dim F) (runUpdates t2.updates (runUpdates t1.updates u)) d ∈ den q.zone := by
  have hin : u ∈ den (guardFed p.zone tr1) :=
    mem_guardFed.2 ⟨hu, t1, ht1, (mem_allowed (h1 t1 ht1).upd hn).2 hc⟩
  rcases hcmp with hcmp | ⟨hsub, hbuilt⟩
  · rw [hcmp] at hin; cases hin
  obtain ⟨_, t2, ht2, hal⟩ := mem_guardFed.1 (hsub hin)
  have hc2 : CanTake t2 u := C06_allowed_sound t2 (h2 t2 ht2).upd hal
  refine ⟨t2, ht2, hc2, ?_⟩
  have g1 := h1 t1 ht1
  have g2 := h2 t2 ht2
  have hv := hc.valid
  have hv' := g2.run_valid (g1.run_valid hv)
  have i1 : runUpdates t2.updates (runUpdates t1.updates u) ∈ InvSet t1.target :=
    g1.inv _ _ (g1.run_valid hv) hv' (fun i hi => (g2.untouched (hdis i hi)).symm) hc.2
  have i2 : runUpdates t2.updates (runUpdates t1.updates u) ∈ InvSet t2.target :=
    g2.inv _ _ (g2.run_valid hv) hv'
      (fun i hi => (runUpdates_congr_at (g1.untouched fun hC => hdis i hC hi)).symm) hc2.2
  have hbt := hbuilt t1 ht1 t2 ht2
  have il : runUpdates t2.updates (runUpdates t1.updates u) ∈
      InvSet (if b then t1.target else t2.target) := by split <;> assumption
  have ir : runUpdates t2.updates (runUpdates t1.updates u) ∈
      InvSet (if b then t2.target else t1.target) := by split <;> assumption
  unfold Built at hbt
  dsimp only at hbt
  generalize (if b = true then t1.target else t2.target) = left at hbt il ⊢
  generalize (if b = true then t2.target else t1.target) = right at hbt ir ⊢
  have hpost : ∀ d, 0 ≤ d → delay (dim F) (runUpdates t2.updates (runUpdates t1.updates u)) d ∈
      den (postZone t1 t2 p.zone) := fun d hd =>
    (mem_postZone g1.upd g2.upd).2 ⟨u, hu, hc.1, hc2.1, d, hd, rfl⟩
  generalize runUpdates t2.updates (runUpdates t1.updates u) = u' at hv' il ir hpost ⊢
  have h0 := hpost 0 (le_refl _)
  rw [delay_zero] at h0
  rcases hbt with he | he | he | ⟨hs, new, hnew, hcov⟩
  · rw [ZoneLib.isEmpty_iff] at he
    have : u ∈ den (t2.applyGuards (t1.applyGuards p.zone)) := by
      simp only [Transition.applyGuards, den_inter]; exact ⟨⟨hu, hc.1⟩, hc2.1⟩
    rw [he] at this; cases this
  · rw [ZoneLib.isEmpty_iff] at he
    have : u' ∈ den (right.applyInvariants (left.applyInvariants (postZone t1 t2 p.zone))) :=
      mem_applyInvariants.2 ⟨mem_applyInvariants.2 ⟨h0, il⟩, ir⟩
    rw [he] at this; cases this
  · rw [ZoneLib.isEmpty_iff] at he
    have : u' ∈ den (left.applyInvariants (postZone t1 t2 p.zone)) := mem_applyInvariants.2 ⟨h0, il⟩
    rw [he] at this; cases this
  · intro d hd hconv
    have hr : ∀ d', 0 ≤ d' → d' ≤ d → delay (dim F) u' d' ∈ InvSet right := by
      intro d' h1 h2
      have hm : delay (dim F) u' d ∈ den (left.applyInvariants (postZone t1 t2 p.zone)) :=
        mem_applyInvariants.2 ⟨hpost d hd.1, hd.2 d hd.1 (le_refl _)⟩
      have hm := hs hm
      rw [den_down] at hm
      obtain ⟨_, e, he, hm⟩ := hm
      rw [delay_add] at hm
      exact hconv u' d' (d + e) hv' ir h1 (by linarith) (mem_applyInvariants.1 hm).2
    refine ⟨⟨hd.1, hr⟩, ?_⟩
    have hz : delay (dim F) u' d ∈
        den (right.applyInvariants (left.applyInvariants (postZone t1 t2 p.zone))) :=
      mem_applyInvariants.2 ⟨mem_applyInvariants.2 ⟨hpost d hd.1, hd.2 d hd.1 (le_refl _)⟩,
        hr d hd.1 (le_refl _)⟩
    unfold StatePair.extrapolate at hnew
    obtain ⟨b1, _, hnew⟩ := bind_ok hnew
    obtain ⟨b2, _, hnew⟩ := bind_ok hnew
    cases hnew
    obtain ⟨q, hq, q1, q2, q3⟩ := hcov _ (extrapolate_sup _ _ hz)
    exact ⟨q, hq, q1.symm, q2.symm, q3⟩

end Refine

theorem CanDelay.congr {C : List Nat} {l : LocTree F} (hl : Local (dim F) C (InvSet l)) {v w : Val}
    (hv : Valid (dim F) v) (hw : Valid (dim F) w) (h : ∀ i ∈ C, v i = w i) {d : ℝ}
    (hd : TS.CanDelay l v d) : TS.CanDelay l w d :=
  ⟨hd.1, fun d' h1 h2 => hl _ _ (delay_valid hv h1) (delay_valid hw h1)
    (fun i hi => Sys.delay_agree (h i hi)) (hd.2 d' h1 h2)⟩

theorem CanDelay.add {l : LocTree F} {v : Val} {d e : ℝ} (hd : TS.CanDelay l v d)
    (he : TS.CanDelay l (delay (dim F) v d) e) : TS.CanDelay l v (d + e) := by
  refine ⟨add_nonneg hd.1 he.1, fun x h1 h2 => ?_⟩
  by_cases hx : x ≤ d
  · exact hd.2 x h1 hx
  · push Not at hx
    have := he.2 (x - d) (by linarith) (by linarith)
    rwa [delay_add, add_sub_cancel] at this

theorem CanDelay.rest {l : LocTree F} {v : Val} {d e : ℝ} (hd : 0 ≤ d) (he : 0 ≤ e)
    (h : TS.CanDelay l v (d + e)) : TS.CanDelay l (delay (dim F) v d) e := by
  refine ⟨he, fun x h1 h2 => ?_⟩
  rw [delay_add]
  exact h.2 _ (by linarith) (by linarith)

theorem canDelay_zero {l : LocTree F} {v : Val} : TS.CanDelay l v 0 ↔ v ∈ InvSet l := by
  constructor
  · intro h; have := h.2 0 (le_refl _) (le_refl _); rwa [delay_zero] at this
  · intro h
    refine ⟨le_refl _, fun d h1 h2 => ?_⟩
    rw [le_antisymm h2 h1, delay_zero]; exact h

/-- The set of passed pairs as a relation between concrete states that the two systems get into: a joint
valuation that has the clocks of both lies, with all its delays, in passed pairs. -/
def PairRel (s t : Sys F) (P : List (StatePair F)) (l : LocTree F) (v : Val) (m : LocTree F) (w : Val) :
    Prop :=
  s.ts.Reach l v ∧ t.ts.Reach m w ∧ ∃ u, Valid (dim F) u ∧ (∀ i ∈ s.clocks, u i = v i) ∧
    (∀ i ∈ t.clocks, u i = w i) ∧ ∀ d, TS.CanDelay l u d → TS.CanDelay m u d ∧
      ∃ p ∈ P, p.l1 = l ∧ p.l2 = m ∧ delay (dim F) u d ∈ den p.zone

/-- A closed set of pairs is a refinement relation. -/
theorem pairRel_refinement {s t : Sys F} (hs : s.Good) (ht : t.Good) (hdis : s.DisjointClocks t)
    (hus : s.ts.UpdatesAgree) (hut : t.ts.UpdatesAgree)
    (hconv : ∀ m w, t.ts.Reach m w → TimeConvex m)
    {ordO ordI : List String} (hordO : ∀ a, a ∈ ordO ↔ a ∈ s.ts.outputs)
    (hordI : ∀ a, a ∈ ordI ↔ a ∈ t.ts.inputs) {P : List (StatePair F)}
    (hloc : ∀ p ∈ P, s.IsLoc p.l1 ∧ t.IsLoc p.l2)
    (hproc : ∀ p ∈ P, Refine.Processed s.ts t.ts ordO ordI P p) :
    IsRefinement s.ts t.ts (PairRel s t P) := by
  have hdis' : ∀ i ∈ t.clocks, i ∉ s.clocks := fun i hi hj => hdis i hj hi
  constructor
  · -- outputs
    rintro l v m w o l' v' ⟨hrl, hrm, u, hu, huv, huw, hd⟩ ho hact
    obtain ⟨hl, hv⟩ := hs.reach hrl
    obtain ⟨hm, hw⟩ := ht.reach hrm
    obtain ⟨ha, trans, htr, t1, ht1, hc, rfl, rfl⟩ := id hact
    have hul : u ∈ InvSet l := hs.invLocal l hl _ _ hv hu (fun i hi => (huv i hi).symm) (Sys.Reach.inv hrl)
    obtain ⟨-, p, hp, rfl, rfl, hpz⟩ := hd 0 (canDelay_zero.2 hul)
    rw [delay_zero] at hpz
    obtain ⟨o1, o2, e1, e2, hcmp⟩ := (hproc p hp).outs o ((hordO o).2 ho)
    have e1 : s.ts.next p.l1 o = .ok o1 := by
      unfold TS.nextOutputs at e1; rwa [if_pos (by simpa using ho)] at e1
    rw [htr] at e1; cases e1
    have hg1 := hs.next_ok hl ha htr
    have hc1 : CanTake t1 u := (hg1 t1 ht1).2.canTake_congr hv hu (fun i hi => (huv i hi).symm) hc
    have hn1 := hus _ _ _ _ hrl ha htr t1 ht1
    have hrl' : s.ts.Reach t1.target (runUpdates t1.updates v) := .act hrl hact
    -- what is common to a matching and an ignoring right side
    have core : (∀ t2 ∈ o2, t.IsLoc t2.target ∧ GoodTrans t.clocks t2) →
        ∃ t2 ∈ o2, CanTake t2 w ∧ (t.ts.Reach t2.target (runUpdates t2.updates w) →
          PairRel s t P t1.target (runUpdates t1.updates v) t2.target (runUpdates t2.updates w)) := by
      intro hg2
      obtain ⟨t2, ht2, hc2, hstep⟩ := Refine.compared_step hcmp hdis (fun t ht => (hg1 t ht).2)
        (fun t ht => (hg2 t ht).2) hpz ht1 hn1 hc1
      have g1 := (hg1 t1 ht1).2
      have g2 := (hg2 t2 ht2).2
      refine ⟨t2, ht2, g2.canTake_congr hu hw huw hc2, fun hr => ⟨hrl', hr, _,
        g2.run_valid (g1.run_valid hu), fun i hi => ?_, fun i hi => ?_, fun d hd => ?_⟩⟩
      · rw [g2.untouched (hdis i hi)]; exact runUpdates_congr_at (huv i hi)
      · refine runUpdates_congr_at ?_
        rw [g1.untouched (hdis' i hi)]; exact huw i hi
      · obtain ⟨h1, q, hq, q1, q2, q3⟩ := hstep d hd (hconv _ _ hr)
        exact ⟨h1, q, hq, hs.unique _ _ (hloc q hq).1 (hg1 t1 ht1).1 q1,
          ht.unique _ _ (hloc q hq).2 (hg2 t2 ht2).1 q2, q3⟩
    constructor
    · intro hto
      have hta : t.ts.hasAction o = true := by simp [TS.hasAction, hto]
      have e2 : t.ts.next p.l2 o = .ok o2 := by
        unfold Refine.outputs2 at e2
        rw [if_neg (by simp [Refine.extraOutputs, mem_setDiff, hto])] at e2
        unfold TS.nextOutputs at e2; rwa [if_pos (by simpa using hto)] at e2
      obtain ⟨t2, ht2, hc2, hR⟩ := core (ht.next_ok hm hta e2)
      have hact2 : t.ts.Act p.l2 w o t2.target (runUpdates t2.updates w) :=
        ⟨hta, o2, e2, t2, ht2, hc2, rfl, rfl⟩
      exact ⟨_, _, hact2, hR (.act hrm hact2)⟩
    · intro hto
      have e2 : [Transition.withoutId p.l2] = o2 := by
        unfold Refine.outputs2 at e2
        rw [if_pos (by simp [Refine.extraOutputs, mem_setDiff, hto, ho])] at e2
        cases e2; rfl
      subst e2
      obtain ⟨t2, ht2, hc2, hR⟩ := core (by
        intro t2 ht2
        rw [List.mem_singleton] at ht2; subst ht2
        exact ⟨hm, goodTrans_withoutId (ht.invLocal _ hm)⟩)
      rw [List.mem_singleton] at ht2; subst ht2
      exact hR hrm
  · -- inputs
    rintro l v m w o m' w' ⟨hrl, hrm, u, hu, huv, huw, hd⟩ ho hact
    obtain ⟨hl, hv⟩ := hs.reach hrl
    obtain ⟨hm, hw⟩ := ht.reach hrm
    obtain ⟨ha, trans, htr, t1, ht1, hc, rfl, rfl⟩ := id hact
    have hul : u ∈ InvSet l := hs.invLocal l hl _ _ hv hu (fun i hi => (huv i hi).symm) (Sys.Reach.inv hrl)
    obtain ⟨-, p, hp, rfl, rfl, hpz⟩ := hd 0 (canDelay_zero.2 hul)
    rw [delay_zero] at hpz
    obtain ⟨i1, i2, e1, e2, hcmp⟩ := (hproc p hp).ins o ((hordI o).2 ho)
    have e2 : t.ts.next p.l2 o = .ok i2 := by
      unfold TS.nextInputs at e2; rwa [if_pos (by simpa using ho)] at e2
    rw [htr] at e2; cases e2
    have hg1 := ht.next_ok hm ha htr
    have hc1 : CanTake t1 u := (hg1 t1 ht1).2.canTake_congr hw hu (fun i hi => (huw i hi).symm) hc
    have hn1 := hut _ _ _ _ hrm ha htr t1 ht1
    have hrm' : t.ts.Reach t1.target (runUpdates t1.updates w) := .act hrm hact
    have core : (∀ t2 ∈ i1, s.IsLoc t2.target ∧ GoodTrans s.clocks t2) →
        ∃ t2 ∈ i1, CanTake t2 v ∧ (s.ts.Reach t2.target (runUpdates t2.updates v) →
          PairRel s t P t2.target (runUpdates t2.updates v) t1.target (runUpdates t1.updates w)) := by
      intro hg2
      obtain ⟨t2, ht2, hc2, hstep⟩ := Refine.compared_step hcmp hdis' (fun t ht => (hg1 t ht).2)
        (fun t ht => (hg2 t ht).2) hpz ht1 hn1 hc1
      have g1 := (hg1 t1 ht1).2
      have g2 := (hg2 t2 ht2).2
      refine ⟨t2, ht2, g2.canTake_congr hu hv huv hc2, fun hr => ⟨hr, hrm', _,
        g2.run_valid (g1.run_valid hu), fun i hi => ?_, fun i hi => ?_, fun d hd => ?_⟩⟩
      · refine runUpdates_congr_at ?_
        rw [g1.untouched (hdis i hi)]; exact huv i hi
      · rw [g2.untouched (hdis' i hi)]; exact runUpdates_congr_at (huw i hi)
      · obtain ⟨h1, q, hq, q1, q2, q3⟩ := hstep d hd (hconv _ _ hrm')
        exact ⟨h1, q, hq, hs.unique _ _ (hloc q hq).1 (hg2 t2 ht2).1 q1,
          ht.unique _ _ (hloc q hq).2 (hg1 t1 ht1).1 q2, q3⟩
    constructor
    · intro hto
      have hta : s.ts.hasAction o = true := by simp [TS.hasAction, hto]
      have e1 : s.ts.next p.l1 o = .ok i1 := by
        unfold Refine.inputs1 at e1
        rw [if_neg (by simp [Refine.extraInputs, mem_setDiff, hto])] at e1
        unfold TS.nextInputs at e1; rwa [if_pos (by simpa using hto)] at e1
      obtain ⟨t2, ht2, hc2, hR⟩ := core (hs.next_ok hl hta e1)
      have hact2 : s.ts.Act p.l1 v o t2.target (runUpdates t2.updates v) :=
        ⟨hta, i1, e1, t2, ht2, hc2, rfl, rfl⟩
      exact ⟨_, _, hact2, hR (.act hrl hact2)⟩
    · intro hto
      have e1 : [Transition.withoutId p.l1] = i1 := by
        unfold Refine.inputs1 at e1
        rw [if_pos (by simp [Refine.extraInputs, mem_setDiff, hto, ho])] at e1
        cases e1; rfl
      subst e1
      obtain ⟨t2, ht2, hc2, hR⟩ := core (by
        intro t2 ht2
        rw [List.mem_singleton] at ht2; subst ht2
        exact ⟨hl, goodTrans_withoutId (hs.invLocal _ hl)⟩)
      rw [List.mem_singleton] at ht2; subst ht2
      exact hR hrl
  · -- delays
    rintro l v m w d ⟨hrl, hrm, u, hu, huv, huw, hd⟩ hdl
    obtain ⟨hl, hv⟩ := hs.reach hrl
    obtain ⟨hm, hw⟩ := ht.reach hrm
    have hdu : TS.CanDelay l u d :=
      CanDelay.congr (hs.invLocal l hl) hv hu (fun i hi => (huv i hi).symm) hdl
    have hdw : TS.CanDelay m w d := CanDelay.congr (ht.invLocal m hm) hu hw huw (hd d hdu).1
    refine ⟨hdw, .delay hrl hdl, .delay hrm hdw, _, delay_valid hu hdl.1,
      fun i hi => Sys.delay_agree (huv i hi), fun i hi => Sys.delay_agree (huw i hi), fun e he => ?_⟩
    obtain ⟨h1, p, hp, q1, q2, q3⟩ := hd (d + e) (CanDelay.add hdu he)
    exact ⟨CanDelay.rest hdl.1 he.1 h1, p, hp, q1, q2, by rw [delay_add]; exact q3⟩

/-- The new pairs of the exploration have locations of the two systems. -/
theorem step_locs {s t : Sys F} (hs : s.Good) (ht : t.Good) {ordO ordI : List String} {p q : StatePair F}
    (hp : s.IsLoc p.l1 ∧ t.IsLoc p.l2) (h : Refine.Step s.ts t.ts ordO ordI p q) :
    s.IsLoc q.l1 ∧ t.IsLoc q.l2 := by
  have nextOut : ∀ {s : Sys F} (_ : s.Good) {l a o}, s.IsLoc l → s.ts.nextOutputs l a = .ok o →
      ∀ x ∈ o, s.IsLoc x.target := by
    intro s hs l a o hl h
    unfold TS.nextOutputs at h
    split at h
    · rename_i ha
      exact fun x hx => (hs.next_ok hl (by simp [TS.hasAction]; right; simpa using ha) h x hx).1
    · cases h
  have nextIn : ∀ {s : Sys F} (_ : s.Good) {l a o}, s.IsLoc l → s.ts.nextInputs l a = .ok o →
      ∀ x ∈ o, s.IsLoc x.target := by
    intro s hs l a o hl h
    unfold TS.nextInputs at h
    split at h
    · rename_i ha
      exact fun x hx => (hs.next_ok hl (by simp [TS.hasAction]; left; simpa using ha) h x hx).1
    · cases h
  rcases h with ⟨a, _, o1, o2, h1, h2, t1, ht1, t2, ht2, e1, e2⟩ | ⟨a, _, o1, o2, h1, h2, t1, ht1, t2, ht2, e1, e2⟩
  · rw [e1, e2]
    refine ⟨nextOut hs hp.1 h1 t1 ht1, ?_⟩
    unfold Refine.outputs2 at h2
    split at h2
    · cases h2; rw [List.mem_singleton] at ht2; subst ht2; exact hp.2
    · exact nextOut ht hp.2 h2 t2 ht2
  · rw [e1, e2]
    refine ⟨?_, nextIn ht hp.2 h2 t2 ht2⟩
    unfold Refine.inputs1 at h1
    split at h1
    · cases h1; rw [List.mem_singleton] at ht1; subst ht1; exact hp.1
    · exact nextIn hs hp.1 h1 t1 ht1

/-- If the refinement check answers that `s` refines `t`, it does.
Missing from the full property: right sides with an invariant that is not convex in time, initial
locations where the right side cuts delays of the left side, and transitions that assign two values to one
clock.  In all three cases the claim is false (`C16_violated_initial_delay`,
`C16_violated_disjunctive_invariant`, `C16_violated_conflicting_updates`); `hdis` is what the allocation of
clock indices gives. -/
theorem C16_refines_partial (s t : Sys F) (hs : s.Accepted) (ht : t.Accepted) (hdis : s.DisjointClocks t)
    (hus : s.ts.UpdatesAgree) (hut : t.ts.UpdatesAgree) (hconv : ∀ m w, t.ts.Reach m w → TimeConvex m)
    (hinit : ∀ l m, s.ts.initialLoc = .ok (some l) → t.ts.initialLoc = .ok (some m) →
      ∀ d, TS.CanDelay l zeroVal d → TS.CanDelay m zeroVal d)
    (ord1 ord2 : List Bool → Orders) (ordO ordI : List String)
    (hordO : ∀ a, a ∈ ordO ↔ a ∈ s.ts.outputs) (hordI : ∀ a, a ∈ ordI ↔ a ∈ t.ts.inputs) (fuel : Nat)
    (h : checkRefinement s t ord1 ord2 ordO ordI fuel = .ok none) : Refines s.ts t.ts := by
  have hs := hs.good
  have ht := ht.good
  obtain ⟨_, _, hfit, h⟩ := (C17_explored s t ord1 ord2 ordO ordI fuel none (by intro f hf; cases hf)).1 h
  refine ⟨hfit, ?_⟩
  unfold Refine.explore at h
  obtain ⟨o1, h1, h⟩ := bind_ok h
  cases o1 with
  | none =>
    obtain ⟨o2, h2, h⟩ := bind_ok h
    cases o2 with
    | none => exact .inl ⟨h1, h2⟩
    | some m => cases h
  | some l =>
    obtain ⟨o2, h2, h⟩ := bind_ok h
    cases o2 with
    | none => cases h
    | some m =>
      refine .inr ⟨l, m, h1, h2, fun hz => ?_⟩
      dsimp only at h
      split at h
      · cases h
      obtain ⟨p, hp, h⟩ := bind_ok h
      obtain ⟨⟨r, c⟩, hmain, h⟩ := bind_ok h
      cases h
      have hl : s.IsLoc l := by
        obtain ⟨o, e1, e2⟩ := hs.initial
        have h1 : s.initialLoc = _ := h1
        rw [e1] at h1; cases h1; exact e2 _ rfl
      have hm : t.IsLoc m := by
        obtain ⟨o, e1, e2⟩ := ht.initial
        have h2 : t.initialLoc = _ := h2
        rw [e1] at h2; cases h2; exact e2 _ rfl
      unfold StatePair.extrapolate at hp
      obtain ⟨b1, _, hp⟩ := bind_ok hp
      obtain ⟨b2, _, hp⟩ := bind_ok hp
      cases hp
      obtain ⟨P, hsub, hproc, hloc⟩ := Refine.mainLoop_spec
        (ok := fun p => s.IsLoc p.l1 ∧ t.IsLoc p.l2) (P := [])
        (fun p q hp hq => step_locs hs ht hp hq) fuel
        ⟨rfl, Waiting.inv_put Waiting.inv_new _⟩ (by simp) (by
          intro p hp
          simp only [List.nil_append, Waiting.put_queue, Waiting.new, List.mem_singleton] at hp
          subst hp; exact ⟨hl, hm⟩) hmain
      refine ⟨_, pairRel_refinement hs ht hdis hus hut hconv hordO hordI hloc hproc, .init h1 hz,
        .init h2 ?_, zeroVal, Sys.zeroVal_valid, fun _ _ => rfl, fun _ _ => rfl, fun d hd => ?_⟩
      · exact canDelay_zero.1 (hinit l m h1 h2 0 (canDelay_zero.2 hz))
      · have hdm := hinit l m h1 h2 d hd
        refine ⟨hdm, _, hsub _ (by simp only [Waiting.put_queue]; exact List.mem_cons_self ..), rfl, rfl, extrapolate_sup _ _ ?_⟩
        exact mem_applyInvariants.2 ⟨mem_applyInvariants.2 ⟨Sys.delay_zero_init hd.1,
          hd.2 d hd.1 (le_refl _)⟩, hdm.2 d hd.1 (le_refl _)⟩

theorem sysA_convex : sysA.ConvexInvs := by
  refine Sys.convex_comp exA_ok (fun _ => .refl _) (getOk_eq _) ?_
  intro l hl g hg
  simp only [exA, List.mem_cons, List.not_mem_nil, or_false] at hl
  rcases hl with rfl | rfl
  · cases hg
  · cases hg; trivial

/-- The hypotheses can be met: the machine `C`, which answers within 3 to 4 time units, refines the machine
`A`, which answers within 2 to 5. -/
theorem C16_example : Refines sysC.ts sysA.ts :=
  C16_refines_partial sysC sysA sysC_accepted sysA_accepted (by unfold Sys.DisjointClocks; decide +kernel)
    (CompComp.EdgesAgree.updatesAgree (by decide +kernel))
    (CompComp.EdgesAgree.updatesAgree (by decide +kernel))
    (fun m _ hr => sysA_convex m (Sys.Good.reach sysA_accepted.good hr).1)
    (fun l m _ hm d hd => ⟨hd.1, fun _ _ _ => by
      have : sysA.ts.initialLoc = .ok (some (.leaf (.simple "L0") none .initial)) := rfl
      rw [this] at hm; cases hm
      intro i hi; cases hi⟩)
    exOrders exOrders ["out"] ["go"] (fun _ => Iff.rfl) (fun _ => Iff.rfl) 20 (passes_eq (by decide +kernel))

/-! ## Where the verdict is wrong -/

/-- Compile an example component over four clocks. -/
def exComp (c : Component) (h : (CompComp.compile (F := Fed4) id c 0).toBool = true) : Sys Fed4 :=
  .comp (getOk (CompComp.compile id c 0) h)

theorem exComp_accepted {c : Component} {h : (CompComp.compile (F := Fed4) id c 0).toBool = true}
    (hc : c.okB 4 = true) : (exComp c h).Accepted :=
  .comp (Component.ok_of_okB hc) (fun _ => .refl _) (getOk_eq _)

/-- Never outputs `o`, and may wait forever. -/
def exLazy : Component := ⟨"S", ⟨[], [("x", 1)]⟩, [⟨"L0", none, .initial, "NORMAL"⟩],
  [⟨"e", "L0", "L0", .output, some (.bool false), none, "o"⟩]⟩
/-- Outputs `o` at least every five time units. -/
def exEager : Component := ⟨"T", ⟨[], [("y", 2)]⟩,
  [⟨"M0", some (.le (.var "y") (.int 5)), .initial, "NORMAL"⟩],
  [⟨"f", "M0", "M0", .output, none, some [⟨"y", .int 0⟩], "o"⟩]⟩

/-- An order for systems with the single output `o` and perhaps the input `go`. -/
def exOrdersO (ins outs : List String) : List Bool → Orders := fun _ => ⟨fun _ => ins ++ outs,
  fun _ => ins, fun _ => outs⟩

/-- The full property is false: the check accepts a left side that may wait forever against a right side
that must act within five time units, because it never compares the delays in the initial locations. -/
theorem C16_violated_initial_delay :
    ∃ s t : Sys Fed4, s.Accepted ∧ t.Accepted ∧ s.DisjointClocks t ∧
      checkRefinement s t (exOrdersO [] ["o"]) (exOrdersO [] ["o"]) ["o"] [] 10 = .ok none ∧
      ¬ Refines s.ts t.ts := by
  refine ⟨exComp exLazy (by decide +kernel), exComp exEager (by decide +kernel),
    exComp_accepted (by decide), exComp_accepted (by decide), by unfold Sys.DisjointClocks; decide +kernel,
    passes_eq (by decide +kernel), fun h => ?_⟩
  let l0 : LocTree Fed4 := .leaf (.simple "L0") none .initial
  let m0 : LocTree Fed4 := .leaf (.simple "M0") (some (constrain univ 2 0 (.LE 5))) .initial
  have e1 : (exComp exLazy (by decide +kernel)).ts.initialLoc = .ok (some l0) := rfl
  have e2 : (exComp exEager (by decide +kernel)).ts.initialLoc = .ok (some m0) := rfl
  rcases h.states with ⟨h, _⟩ | ⟨l, m, h1, h2, h⟩
  · rw [e1] at h; cases h
  · rw [e1] at h1; cases h1
    rw [e2] at h2; cases h2
    obtain ⟨R, hR, h0⟩ := h (by intro i hi; cases hi)
    have hd := (hR.delay h0 (d := 6) ⟨by norm_num, fun d _ _ i hi => by cases hi⟩).1
    have := hd.2 6 (by norm_num) (le_refl _) _ rfl
    rw [den_constrain _ _ _ _ (by decide) (by decide)] at this
    have := this.2
    simp [Ineq.Sat, delay, zeroVal, dim_fed4] at this
    norm_num at this

/-- Waits for `go` and then forever. -/
def exEither : Component := ⟨"S", ⟨[], [("x", 1)]⟩,
  [⟨"L0", none, .initial, "NORMAL"⟩, ⟨"L1", none, .normal, "NORMAL"⟩],
  [⟨"e", "L0", "L1", .input, none, none, "go"⟩]⟩
/-- After `go` must not let the clock be between 1 and 3. -/
def exHole : Component := ⟨"T", ⟨[], [("y", 2)]⟩,
  [⟨"M0", none, .initial, "NORMAL"⟩,
   ⟨"M1", some (.or (.le (.var "y") (.int 1)) (.ge (.var "y") (.int 3))), .normal, "NORMAL"⟩],
  [⟨"f", "M0", "M1", .input, none, some [⟨"y", .int 0⟩], "go"⟩]⟩

/-- The full property is false: the check accepts a left side that lets time pass where the right side
cannot, because a later delay inside the right invariant counts as if all earlier ones were allowed. -/
theorem C16_violated_disjunctive_invariant :
    ∃ s t : Sys Fed4, s.Accepted ∧ t.Accepted ∧ s.DisjointClocks t ∧
      checkRefinement s t (exOrdersO ["go"] []) (exOrdersO ["go"] []) [] ["go"] 10 = .ok none ∧
      ¬ Refines s.ts t.ts := by
  refine ⟨exComp exEither (by decide +kernel), exComp exHole (by decide +kernel),
    exComp_accepted (by decide), exComp_accepted (by decide), by unfold Sys.DisjointClocks; decide +kernel,
    passes_eq (by decide +kernel), fun h => ?_⟩
  let l0 : LocTree Fed4 := .leaf (.simple "L0") none .initial
  let l1 : LocTree Fed4 := .leaf (.simple "L1") none .normal
  let m0 : LocTree Fed4 := .leaf (.simple "M0") none .initial
  let m1 : LocTree Fed4 := .leaf (.simple "M1")
    (some (append (constrain univ 2 0 (.LE 1)) (constrain univ 0 2 (.LE (-3))))) .normal
  have e1 : (exComp exEither (by decide +kernel)).ts.initialLoc = .ok (some l0) := rfl
  have e2 : (exComp exHole (by decide +kernel)).ts.initialLoc = .ok (some m0) := rfl
  have n1 : (exComp exEither (by decide +kernel)).ts.next l0 "go" = .ok [⟨.simple "e", univ, l1, []⟩] := rfl
  have n2 : (exComp exHole (by decide +kernel)).ts.next m0 "go" = .ok [⟨.simple "f", univ, m1, [⟨2, 0⟩]⟩] :=
    rfl
  have hz : zeroVal ∈ den (univ : Fed4) := by rw [den_univ]; exact Sys.zeroVal_valid
  rcases h.states with ⟨h, _⟩ | ⟨l, m, h1, h2, h⟩
  · rw [e1] at h; cases h
  · rw [e1] at h1; cases h1
    rw [e2] at h2; cases h2
    obtain ⟨R, hR, h0⟩ := h (by intro i hi; cases hi)
    have hi : (assign zeroVal 2 0) ∈ InvSet m1 := by
      intro i hi; cases hi
      rw [den_append]; left
      rw [den_constrain _ _ _ _ (by decide) (by decide)]
      refine ⟨by rw [den_univ]; exact assign_valid Sys.zeroVal_valid (by decide) (by decide) (le_refl _), ?_⟩
      simp [Ineq.Sat, assign, zeroVal]
    obtain ⟨l', v', ⟨_, tr, hn, t, ht, _, rfl, rfl⟩, hr⟩ := (hR.input h0 (i := "go") (m' := m1)
      (w' := assign zeroVal 2 0) (by decide +kernel) ⟨by decide +kernel, _, n2, _, List.mem_singleton.2 rfl,
        ⟨hz, by simpa [runUpdates] using hi⟩, rfl, by simp [runUpdates]⟩).1 (by decide +kernel)
    rw [n1] at hn; cases hn
    rw [List.mem_singleton] at ht; subst ht
    have hd := (hR.delay hr (d := 2) ⟨by norm_num, fun d _ _ i hi => by cases hi⟩).1
    have := hd.2 2 (by norm_num) (le_refl _) _ rfl
    rw [den_append, den_constrain _ _ _ _ (by decide) (by decide),
      den_constrain _ _ _ _ (by decide) (by decide)] at this
    rcases this with ⟨_, this⟩ | ⟨_, this⟩ <;>
      norm_num [Ineq.Sat, delay, assign, zeroVal, dim_fed4] at this

/-- Outputs `o` with two conflicting assignments. -/
def exTwice : Component := ⟨"S", ⟨[], [("x", 1)]⟩, [⟨"L0", none, .initial, "NORMAL"⟩],
  [⟨"e", "L0", "L0", .output, none, some [⟨"x", .int 0⟩, ⟨"x", .int 1⟩], "o"⟩]⟩
/-- Never outputs `o`. -/
def exNever : Component := ⟨"T", ⟨[], [("y", 2)]⟩, [⟨"M0", none, .initial, "NORMAL"⟩],
  [⟨"f", "M0", "M0", .output, some (.bool false), none, "o"⟩]⟩

/-- The full property is false: an output that assigns two values to one clock is not seen by the check. -/
theorem C16_violated_conflicting_updates :
    ∃ s t : Sys Fed4, s.Accepted ∧ t.Accepted ∧ s.DisjointClocks t ∧
      checkRefinement s t (exOrdersO [] ["o"]) (exOrdersO [] ["o"]) ["o"] [] 10 = .ok none ∧
      ¬ Refines s.ts t.ts := by
  refine ⟨exComp exTwice (by decide +kernel), exComp exNever (by decide +kernel),
    exComp_accepted (by decide), exComp_accepted (by decide), by unfold Sys.DisjointClocks; decide +kernel,
    passes_eq (by decide +kernel), fun h => ?_⟩
  let l0 : LocTree Fed4 := .leaf (.simple "L0") none .initial
  let m0 : LocTree Fed4 := .leaf (.simple "M0") none .initial
  have e1 : (exComp exTwice (by decide +kernel)).ts.initialLoc = .ok (some l0) := rfl
  have e2 : (exComp exNever (by decide +kernel)).ts.initialLoc = .ok (some m0) := rfl
  have n1 : (exComp exTwice (by decide +kernel)).ts.next l0 "o" =
    .ok [⟨.simple "e", univ, l0, [⟨1, 0⟩, ⟨1, 1⟩]⟩] := rfl
  have n2 : (exComp exNever (by decide +kernel)).ts.next m0 "o" = .ok [⟨.simple "f", empty, m0, []⟩] :=
    rfl
  have hz : zeroVal ∈ den (univ : Fed4) := by rw [den_univ]; exact Sys.zeroVal_valid
  rcases h.states with ⟨h, _⟩ | ⟨l, m, h1, h2, h⟩
  · rw [e1] at h; cases h
  · rw [e1] at h1; cases h1
    rw [e2] at h2; cases h2
    obtain ⟨R, hR, h0⟩ := h (by intro i hi; cases hi)
    obtain ⟨m', w', ⟨_, tr, hn, t, ht, hc, _⟩, _⟩ := (hR.output h0 (o := "o") (by decide +kernel)
      ⟨by decide +kernel, _, n1, _, List.mem_singleton.2 rfl, ⟨hz, by intro i hi; cases hi⟩, rfl, rfl⟩).1
      (by decide +kernel)
    rw [n2] at hn; cases hn
    rw [List.mem_singleton] at ht; subst ht
    have := hc.1
    rw [den_empty] at this; cases this

end Reveaal
