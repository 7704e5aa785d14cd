import Verif.Props.C13
import Verif.Props.C16
import Verif.Props.C37
import Verif.Lemmas.RefineFail

/-! # C55: a negative refinement verdict is right -/

namespace Reveaal
open ZoneLib
variable {F : Type} [ZoneLib F]

/-- In the concrete states the system gets into, a transition whose guard holds can be taken: its target
can be entered. -/
def TS.TargetsOpen (ts : TS F) : Prop :=
  ∀ l v a trans, ts.Reach l v → ts.hasAction a = true → ts.next l a = .ok trans → ∀ t ∈ trans,
    v ∈ den t.guard → runUpdates t.updates v ∈ InvSet t.target

/-- What the argument needs to know of each side. -/
structure Sys.Regular (s : Sys F) : Prop where
  good : s.Good
  covers : s.BoundsCover
  past : ∀ l, s.IsLoc l → PastClosed l
  agree : s.ts.UpdatesAgree
  det : s.ts.Deterministic
  opened : s.ts.TargetsOpen

/-- The joint valuation `u` shows states of the two sides that are related by `R`. -/
def LinkedBy (s t : Sys F) (R : LocTree F → Val → LocTree F → Val → Prop) (l m : LocTree F) (u : Val) : Prop :=
  Valid (dim F) u ∧ ∃ v w, s.ts.Reach l v ∧ t.ts.Reach m w ∧ (∀ i ∈ s.clocks, u i = v i) ∧
    (∀ i ∈ t.clocks, u i = w i) ∧ R l v m w

theorem det_unique {X : Type} {P : X → Prop} {xs : List X} (h : xs.Pairwise fun a b => ¬ (P a ∧ P b))
    {a b : X} (ha : a ∈ xs) (hb : b ∈ xs) (pa : P a) (pb : P b) : a = b := by
  induction xs with
  | nil => cases ha
  | cons x xs ih =>
    rw [List.pairwise_cons] at h
    rcases List.mem_cons.1 ha with ea | ha' <;> rcases List.mem_cons.1 hb with eb | hb'
    · rw [ea, eb]
    · subst ea; exact (h.1 b hb' ⟨pa, pb⟩).elim
    · subst eb; exact (h.1 a ha' ⟨pb, pa⟩).elim
    · exact ih h.2 ha' hb'

namespace Refine

/-- A transition of a side from location `l`, as the exploration sees it. -/
structure Side (s : Sys F) (l : LocTree F) (b : Bounds) (t : Transition F) : Prop where
  loc : s.IsLoc t.target
  good : GoodTrans s.clocks t
  covers : b.Covers (dim F) (den t.guard)
  next : ∀ b', s.localBounds t.target = .ok b' → b.Weaker b'
  opened : ∀ v, s.ts.Reach l v → v ∈ den t.guard → CanTake t v
  agree : ∀ v, s.ts.Reach l v → NoConflict t.updates

theorem side_next {s : Sys F} (hs : s.Regular) {l : LocTree F} (hl : s.IsLoc l) {b : Bounds}
    (hb : s.localBounds l = .ok b) {a : String} (ha : s.ts.hasAction a = true) {trans : List (Transition F)}
    (hn : s.ts.next l a = .ok trans) {t : Transition F} (ht : t ∈ trans) : Side s l b t where
  loc := (hs.good.next_ok hl ha hn t ht).1
  good := (hs.good.next_ok hl ha hn t ht).2
  covers := hs.covers.guard hl hb ha hn ht
  next := fun _ hb' => hs.covers.next hl hb ha hn ht hb'
  opened := fun v hr hg => ⟨hg, hs.opened l v a trans hr ha hn t ht hg⟩
  agree := fun v hr => hs.agree l v a trans hr ha hn t ht

theorem side_stay {s : Sys F} (hs : s.Regular) {l : LocTree F} (hl : s.IsLoc l) {b : Bounds}
    (hb : s.localBounds l = .ok b) : Side s l b (Transition.withoutId l) where
  loc := hl
  good := goodTrans_withoutId (hs.good.invLocal l hl)
  covers := Bounds.covers_univ b
  next := fun b' hb' => by
    rw [show (Transition.withoutId l).target = l from rfl, hb] at hb'; cases hb'; exact .refl _
  opened := fun v hr hg => ⟨hg, Sys.Reach.inv hr⟩
  agree := fun v hr => by simp [NoConflict, Transition.withoutId]

variable {s t : Sys F} {R : LocTree F → Val → LocTree F → Val → Prop}

/-- Time passes on both sides. -/
theorem linked_delay (hs : s.Regular) (ht : t.Regular) (hR : IsRefinement s.ts t.ts R) {l m : LocTree F}
    {u : Val} (h : LinkedBy s t R l m u) {d : ℝ} (hd : 0 ≤ d) (hi : delay (dim F) u d ∈ InvSet l) :
    LinkedBy s t R l m (delay (dim F) u d) := by
  obtain ⟨hu, v, w, hrl, hrm, huv, huw, hr⟩ := h
  obtain ⟨hl, hv⟩ := hs.good.reach hrl
  obtain ⟨hm, hw⟩ := ht.good.reach hrm
  have hcd : TS.CanDelay l v d := by
    refine CanDelay.congr (hs.good.invLocal l hl) hu hv huv ⟨hd, fun d' h1 h2 => ?_⟩
    refine hs.past l hl _ (d - d') (delay_valid hu h1) (by linarith) ?_
    rw [delay_add, add_sub_cancel]; exact hi
  obtain ⟨hcm, hr'⟩ := hR.delay hr hcd
  exact ⟨delay_valid hu hd, _, _, .delay hrl hcd, .delay hrm hcm, fun i hi => Sys.delay_agree (huv i hi),
    fun i hi => Sys.delay_agree (huw i hi), hr'⟩

theorem linked_inv (hs : s.Regular) (ht : t.Regular) {l m : LocTree F} {u : Val}
    (h : LinkedBy s t R l m u) : u ∈ InvSet l ∧ u ∈ InvSet m := by
  obtain ⟨hu, v, w, hrl, hrm, huv, huw, hr⟩ := h
  obtain ⟨hl, hv⟩ := hs.good.reach hrl
  obtain ⟨hm, hw⟩ := ht.good.reach hrm
  exact ⟨hs.good.invLocal l hl _ _ hv hu (fun i hi => (huv i hi).symm) (Sys.Reach.inv hrl),
    ht.good.invLocal m hm _ _ hw hu (fun i hi => (huw i hi).symm) (Sys.Reach.inv hrm)⟩

/-- Taking the two transitions keeps the link, in whatever order the updates are run. -/
theorem linked_updates (hdis : s.DisjointClocks t) {l' m' : LocTree F} {t1 t2 : Transition F} {u v w : Val}
    (g1 : GoodTrans s.clocks t1) (g2 : GoodTrans t.clocks t2) (hu : Valid (dim F) u)
    (huv : ∀ i ∈ s.clocks, u i = v i) (huw : ∀ i ∈ t.clocks, u i = w i)
    (hrl : s.ts.Reach l' (runUpdates t1.updates v)) (hrm : t.ts.Reach m' (runUpdates t2.updates w))
    (hr : R l' (runUpdates t1.updates v) m' (runUpdates t2.updates w)) :
    LinkedBy s t R l' m' (runUpdates t2.updates (runUpdates t1.updates u)) ∧
      LinkedBy s t R l' m' (runUpdates t1.updates (runUpdates t2.updates u)) := by
  have hdis' : ∀ i ∈ t.clocks, i ∉ s.clocks := fun i hi hj => hdis i hj hi
  constructor
  · refine ⟨g2.run_valid (g1.run_valid hu), _, _, hrl, hrm, fun i hi => ?_, fun i hi => ?_, hr⟩
    · rw [g2.untouched (hdis i hi)]; exact runUpdates_congr_at (huv i hi)
    · refine runUpdates_congr_at ?_
      rw [g1.untouched (hdis' i hi)]; exact huw i hi
  · refine ⟨g1.run_valid (g2.run_valid hu), _, _, hrl, hrm, fun i hi => ?_, fun i hi => ?_, hr⟩
    · refine runUpdates_congr_at ?_
      rw [g2.untouched (hdis i hi)]; exact huv i hi
    · rw [g1.untouched (hdis' i hi)]; exact runUpdates_congr_at (huw i hi)

/-- The transitions of the two sides for one action, and how they answer each other: `lead` are the
transitions of the side that moves first, `follow` those of the other. -/
structure Answered (s t : Sys F) (R : LocTree F → Val → LocTree F → Val → Prop) (p : StatePair F)
    (lead follow : List (Transition F)) (b : Bool) : Prop where
  both : ∀ t1 ∈ lead, ∀ t2 ∈ follow, ∀ u, LinkedBy s t R p.l1 p.l2 u → CanTake t1 u → CanTake t2 u →
    LinkedBy s t R (if b then t1.target else t2.target) (if b then t2.target else t1.target)
      (runUpdates t2.updates (runUpdates t1.updates u))
  some : ∀ t1 ∈ lead, ∀ u, LinkedBy s t R p.l1 p.l2 u → CanTake t1 u → ∃ t2 ∈ follow, CanTake t2 u

theorem answered_output (hs : s.Regular) (ht : t.Regular) (hdis : s.DisjointClocks t)
    (hR : IsRefinement s.ts t.ts R) {p : StatePair F} (hl : s.IsLoc p.l1) (hm : t.IsLoc p.l2)
    {a : String} (ha : a ∈ s.ts.outputs) {o1 o2 : List (Transition F)} (h1 : s.ts.nextOutputs p.l1 a = .ok o1)
    (h2 : outputs2 s.ts t.ts p a = .ok o2) : Answered s t R p o1 o2 true := by
  have has : s.ts.hasAction a = true := by simp [TS.hasAction, ha]
  have h1 : s.ts.next p.l1 a = .ok o1 := by
    unfold TS.nextOutputs at h1; rwa [if_pos (by simpa using ha)] at h1
  have hg1 := hs.good.next_ok hl has h1
  by_cases hto : a ∈ t.ts.outputs
  · have hta : t.ts.hasAction a = true := by simp [TS.hasAction, hto]
    have h2 : t.ts.next p.l2 a = .ok o2 := by
      unfold outputs2 at h2
      rw [if_neg (by simp [extraOutputs, mem_setDiff, hto])] at h2
      unfold TS.nextOutputs at h2; rwa [if_pos (by simpa using hto)] at h2
    have hg2 := ht.good.next_ok hm hta h2
    have key : ∀ t1 ∈ o1, ∀ u v w, Valid (dim F) u → s.ts.Reach p.l1 v → t.ts.Reach p.l2 w →
        (∀ i ∈ s.clocks, u i = v i) → (∀ i ∈ t.clocks, u i = w i) → R p.l1 v p.l2 w → CanTake t1 u →
        s.ts.Reach t1.target (runUpdates t1.updates v) ∧ ∃ t2 ∈ o2, CanTake t2 w ∧ CanTake t2 u ∧
          t.ts.Reach t2.target (runUpdates t2.updates w) ∧
          R t1.target (runUpdates t1.updates v) t2.target (runUpdates t2.updates w) := by
      intro t1 ht1 u v w hu hrl hrm huv huw hr hc
      have hv := (hs.good.reach hrl).2
      have hw := (ht.good.reach hrm).2
      have hc1 := (hg1 t1 ht1).2.canTake_congr hu hv huv hc
      have hact : s.ts.Act p.l1 v a t1.target (runUpdates t1.updates v) := ⟨has, o1, h1, t1, ht1, hc1, rfl, rfl⟩
      obtain ⟨m', w', hact2, hr'⟩ := (hR.output hr ha hact).1 hto
      obtain ⟨_, tr, e, t2, ht2, hc2, rfl, rfl⟩ := id hact2
      rw [h2] at e; cases e
      exact ⟨.act hrl hact, t2, ht2, hc2, (hg2 t2 ht2).2.canTake_congr hw hu (fun i hi => (huw i hi).symm) hc2,
        .act hrm hact2, hr'⟩
    constructor
    · rintro t1 ht1 t2 ht2 u ⟨hu, v, w, hrl, hrm, huv, huw, hr⟩ hc1 hc2
      obtain ⟨hrl', t2', ht2', hc2', _, hrm', hr'⟩ := key t1 ht1 u v w hu hrl hrm huv huw hr hc1
      have hw := (ht.good.reach hrm).2
      have hc2 := (hg2 t2 ht2).2.canTake_congr hu hw huw hc2
      have := det_unique (ht.det _ _ hrm a o2 hta h2) ht2' ht2 hc2' hc2
      subst this
      exact (linked_updates hdis (hg1 t1 ht1).2 (hg2 _ ht2).2 hu huv huw hrl' hrm' hr').1
    · rintro t1 ht1 u ⟨hu, v, w, hrl, hrm, huv, huw, hr⟩ hc1
      obtain ⟨_, t2, ht2, _, hc2, _⟩ := key t1 ht1 u v w hu hrl hrm huv huw hr hc1
      exact ⟨t2, ht2, hc2⟩
  · have h2 : [Transition.withoutId p.l2] = o2 := by
      unfold outputs2 at h2
      rw [if_pos (by simp [extraOutputs, mem_setDiff, hto, ha])] at h2
      cases h2; rfl
    subst h2
    constructor
    · rintro t1 ht1 t2 ht2 u ⟨hu, v, w, hrl, hrm, huv, huw, hr⟩ hc1 hc2
      rw [List.mem_singleton] at ht2; subst ht2
      have hv := (hs.good.reach hrl).2
      have hc1 := (hg1 t1 ht1).2.canTake_congr hu hv huv hc1
      have hact : s.ts.Act p.l1 v a t1.target (runUpdates t1.updates v) := ⟨has, o1, h1, t1, ht1, hc1, rfl, rfl⟩
      have hr' := (hR.output hr ha hact).2 hto
      exact (linked_updates hdis (hg1 t1 ht1).2 (goodTrans_withoutId (ht.good.invLocal _ hm)) hu huv huw
        (.act hrl hact) hrm hr').1
    · intro t1 ht1 u hu _
      exact ⟨_, List.mem_singleton.2 rfl, by rw [Transition.withoutId, den_univ]; exact hu.1,
        (linked_inv hs ht hu).2⟩

theorem answered_input (hs : s.Regular) (ht : t.Regular) (hdis : s.DisjointClocks t)
    (hR : IsRefinement s.ts t.ts R) {p : StatePair F} (hl : s.IsLoc p.l1) (hm : t.IsLoc p.l2)
    {a : String} (ha : a ∈ t.ts.inputs) {i1 i2 : List (Transition F)} (h1 : inputs1 s.ts t.ts p a = .ok i1)
    (h2 : t.ts.nextInputs p.l2 a = .ok i2) : Answered s t R p i2 i1 false := by
  have hta : t.ts.hasAction a = true := by simp [TS.hasAction, ha]
  have h2 : t.ts.next p.l2 a = .ok i2 := by
    unfold TS.nextInputs at h2; rwa [if_pos (by simpa using ha)] at h2
  have hg2 := ht.good.next_ok hm hta h2
  by_cases hto : a ∈ s.ts.inputs
  · have has : s.ts.hasAction a = true := by simp [TS.hasAction, hto]
    have h1 : s.ts.next p.l1 a = .ok i1 := by
      unfold inputs1 at h1
      rw [if_neg (by simp [extraInputs, mem_setDiff, hto])] at h1
      unfold TS.nextInputs at h1; rwa [if_pos (by simpa using hto)] at h1
    have hg1 := hs.good.next_ok hl has h1
    have key : ∀ t2 ∈ i2, ∀ u v w, Valid (dim F) u → s.ts.Reach p.l1 v → t.ts.Reach p.l2 w →
        (∀ i ∈ s.clocks, u i = v i) → (∀ i ∈ t.clocks, u i = w i) → R p.l1 v p.l2 w → CanTake t2 u →
        t.ts.Reach t2.target (runUpdates t2.updates w) ∧ ∃ t1 ∈ i1, CanTake t1 v ∧ CanTake t1 u ∧
          s.ts.Reach t1.target (runUpdates t1.updates v) ∧
          R t1.target (runUpdates t1.updates v) t2.target (runUpdates t2.updates w) := by
      intro t2 ht2 u v w hu hrl hrm huv huw hr hc
      have hv := (hs.good.reach hrl).2
      have hw := (ht.good.reach hrm).2
      have hc2 := (hg2 t2 ht2).2.canTake_congr hu hw huw hc
      have hact : t.ts.Act p.l2 w a t2.target (runUpdates t2.updates w) := ⟨hta, i2, h2, t2, ht2, hc2, rfl, rfl⟩
      obtain ⟨l', v', hact1, hr'⟩ := (hR.input hr ha hact).1 hto
      obtain ⟨_, tr, e, t1, ht1, hc1, rfl, rfl⟩ := id hact1
      rw [h1] at e; cases e
      exact ⟨.act hrm hact, t1, ht1, hc1, (hg1 t1 ht1).2.canTake_congr hv hu (fun i hi => (huv i hi).symm) hc1,
        .act hrl hact1, hr'⟩
    constructor
    · rintro t2 ht2 t1 ht1 u ⟨hu, v, w, hrl, hrm, huv, huw, hr⟩ hc2 hc1
      obtain ⟨hrm', t1', ht1', hc1', _, hrl', hr'⟩ := key t2 ht2 u v w hu hrl hrm huv huw hr hc2
      have hv := (hs.good.reach hrl).2
      have hc1 := (hg1 t1 ht1).2.canTake_congr hu hv huv hc1
      have := det_unique (hs.det _ _ hrl a i1 has h1) ht1' ht1 hc1' hc1
      subst this
      exact (linked_updates hdis (hg1 _ ht1).2 (hg2 t2 ht2).2 hu huv huw hrl' hrm' hr').2
    · rintro t2 ht2 u ⟨hu, v, w, hrl, hrm, huv, huw, hr⟩ hc2
      obtain ⟨_, t1, ht1, _, hc1, _⟩ := key t2 ht2 u v w hu hrl hrm huv huw hr hc2
      exact ⟨t1, ht1, hc1⟩
  · have h1 : [Transition.withoutId p.l1] = i1 := by
      unfold inputs1 at h1
      rw [if_pos (by simp [extraInputs, mem_setDiff, hto, ha])] at h1
      cases h1; rfl
    subst h1
    constructor
    · rintro t2 ht2 t1 ht1 u ⟨hu, v, w, hrl, hrm, huv, huw, hr⟩ hc2 hc1
      rw [List.mem_singleton] at ht1; subst ht1
      have hw := (ht.good.reach hrm).2
      have hc2 := (hg2 t2 ht2).2.canTake_congr hu hw huw hc2
      have hact : t.ts.Act p.l2 w a t2.target (runUpdates t2.updates w) := ⟨hta, i2, h2, t2, ht2, hc2, rfl, rfl⟩
      have hr' := (hR.input hr ha hact).2 hto
      exact (linked_updates hdis (goodTrans_withoutId (hs.good.invLocal _ hl)) (hg2 t2 ht2).2 hu huv huw
        hrl (.act hrm hact) hr').2
    · intro t1 ht1 u hu _
      exact ⟨_, List.mem_singleton.2 rfl, by rw [Transition.withoutId, den_univ]; exact hu.1,
        (linked_inv hs ht hu).1⟩

/-- The pair only holds valuations that cannot be told from linked ones. -/
def GoodPair (s t : Sys F) (R : LocTree F → Val → LocTree F → Val → Prop) (p : StatePair F) : Prop :=
  s.IsLoc p.l1 ∧ t.IsLoc p.l2 ∧ ∃ b1 b2, s.localBounds p.l1 = .ok b1 ∧ t.localBounds p.l2 = .ok b2 ∧
    ∀ u ∈ den p.zone, ∃ u', (Bounds.add b1 b2).Equiv u u' ∧ LinkedBy s t R p.l1 p.l2 u'

/-- What is known of one transition, whichever side it belongs to. -/
structure Known (s t : Sys F) (R : LocTree F → Val → LocTree F → Val → Prop) (p : StatePair F) (E : Bounds)
    (x : Transition F) : Prop where
  upd : UpdatesOk x.updates (dim F)
  opened : ∀ u, LinkedBy s t R p.l1 p.l2 u → u ∈ den x.guard → CanTake x u
  guard : E.Covers (dim F) (den x.guard)
  take : ∀ u u', Valid (dim F) u → Valid (dim F) u' → E.Equiv u u' → CanTake x u → CanTake x u'
  agree : ∀ u, LinkedBy s t R p.l1 p.l2 u → NoConflict x.updates

theorem Side.take {q : Sys F} (hq : q.Regular) {l : LocTree F} {b : Bounds} {x : Transition F}
    (h : Side q l b x) {u u' : Val} (hu : Valid (dim F) u) (hu' : Valid (dim F) u') (he : b.Equiv u u')
    (hc : CanTake x u) : CanTake x u' := by
  obtain ⟨b', hb'⟩ := hq.good.bounds _ h.loc
  exact ⟨h.covers _ _ hu hu' he hc.1, hq.covers.inv h.loc hb' _ _ (h.good.run_valid hu)
    (h.good.run_valid hu') ((h.next b' hb').equiv he).run hc.2⟩

theorem Side.known_left (hs : s.Regular) {p : StatePair F} {b1 b2 : Bounds} {x : Transition F}
    (h : Side s p.l1 b1 x) : Known s t R p (Bounds.add b1 b2) x where
  upd := h.good.upd
  opened := by
    rintro u ⟨hu, v, w, hrl, hrm, huv, huw, hr⟩ hg
    have hv := (hs.good.reach hrl).2
    exact h.good.canTake_congr hv hu (fun i hi => (huv i hi).symm)
      (h.opened v hrl (h.good.guard _ _ hu hv huv hg))
  guard := h.covers.mono (Bounds.weaker_add_left _ _)
  take := fun u u' hu hu' he => h.take hs hu hu' ((Bounds.weaker_add_left _ _).equiv he)
  agree := by rintro u ⟨hu, v, w, hrl, _⟩; exact h.agree v hrl

theorem Side.known_right (ht : t.Regular) {p : StatePair F} {b1 b2 : Bounds} {x : Transition F}
    (h : Side t p.l2 b2 x) : Known s t R p (Bounds.add b1 b2) x where
  upd := h.good.upd
  opened := by
    rintro u ⟨hu, v, w, hrl, hrm, huv, huw, hr⟩ hg
    have hw := (ht.good.reach hrm).2
    exact h.good.canTake_congr hw hu (fun i hi => (huw i hi).symm)
      (h.opened w hrm (h.good.guard _ _ hu hw huw hg))
  guard := h.covers.mono (Bounds.weaker_add_right _ _)
  take := fun u u' hu hu' he => h.take ht hu hu' ((Bounds.weaker_add_right _ _).equiv he)
  agree := by rintro u ⟨hu, v, w, hrl, hrm, _⟩; exact h.agree w hrm

theorem equiv_trans {b : Bounds} {u v w : Val} (h1 : b.Equiv u v) (h2 : b.Equiv v w) : b.Equiv u w := by
  intro i
  rcases h1 i with e1 | e1 <;> rcases h2 i with e2 | e2
  · exact .inl (e1.trans e2)
  · exact .inr fun m hm => ⟨by rw [e1]; exact (e2 m hm).1, (e2 m hm).2⟩
  · exact .inr fun m hm => ⟨(e1 m hm).1, by rw [← e2]; exact (e1 m hm).2⟩
  · exact .inr fun m hm => ⟨(e1 m hm).1, (e2 m hm).2⟩

/-- After two transitions and a delay that the left side allows, the valuations still cannot be told from
linked ones. -/
theorem post_linked (hs : s.Regular) (ht : t.Regular) (hR : IsRefinement s.ts t.ts R) {p : StatePair F}
    {E E' bl : Bounds} (hp : ∀ u ∈ den p.zone, ∃ u', E.Equiv u u' ∧ LinkedBy s t R p.l1 p.l2 u')
    {t1 t2 : Transition F} (k1 : Known s t R p E t1) (k2 : Known s t R p E t2) {left right : LocTree F}
    (hboth : ∀ u, LinkedBy s t R p.l1 p.l2 u → CanTake t1 u → CanTake t2 u →
      LinkedBy s t R left right (runUpdates t2.updates (runUpdates t1.updates u)))
    (hl : s.IsLoc left) (hbl : s.localBounds left = .ok bl) (hw1 : E.Weaker E') (hw2 : E'.Weaker bl) :
    ∀ w ∈ den (left.applyInvariants (postZone t1 t2 p.zone)), ∃ w', E'.Equiv w w' ∧
      LinkedBy s t R left right w' := by
  intro w hw
  obtain ⟨hw, hi⟩ := mem_applyInvariants.1 hw
  obtain ⟨u, hu, hg1, hg2, d, hd, rfl⟩ := (mem_postZone k1.upd k2.upd).1 hw
  obtain ⟨u', he, hlink⟩ := hp u hu
  have hv := den_valid hu
  have c1 := k1.opened u' hlink (k1.guard _ _ hv hlink.1 he hg1)
  have c2 := k2.opened u' hlink (k2.guard _ _ hv hlink.1 he hg2)
  have hnew := hboth u' hlink c1 c2
  have he' : E'.Equiv (delay (dim F) (runUpdates t2.updates (runUpdates t1.updates u)) d)
      (delay (dim F) (runUpdates t2.updates (runUpdates t1.updates u')) d) :=
    (hw1.equiv he).run.run.delay hd
  have hv2 : Valid (dim F) (runUpdates t2.updates (runUpdates t1.updates u)) :=
    runUpdates_valid k2.upd (runUpdates_valid k1.upd hv)
  refine ⟨_, he', linked_delay hs ht hR hnew hd ?_⟩
  exact hs.covers.inv hl hbl _ _ (delay_valid hv2 hd) (delay_valid hnew.1 hd) (hw2.equiv he') hi

variable {ordO ordI : List String}

/-- One comparison, for whichever side leads: new pairs are good, and the comparison does not fail. -/
theorem compare_good (hs : s.Regular) (ht : t.Regular) (hR : IsRefinement s.ts t.ts R) {p : StatePair F}
    {E : Bounds} (hp : ∀ u ∈ den p.zone, ∃ u', E.Equiv u u' ∧ LinkedBy s t R p.l1 p.l2 u')
    {lead follow : List (Transition F)} {b : Bool} (hans : Answered s t R p lead follow b)
    (k1 : ∀ x ∈ lead, Known s t R p E x) (k2 : ∀ x ∈ follow, Known s t R p E x)
    (hloc : ∀ t1 ∈ lead, ∀ t2 ∈ follow, s.IsLoc (if b then t1.target else t2.target) ∧
      t.IsLoc (if b then t2.target else t1.target) ∧
      ∀ bl br, s.localBounds (if b then t1.target else t2.target) = .ok bl →
        t.localBounds (if b then t2.target else t1.target) = .ok br → E.Weaker (Bounds.add bl br)) :
    (∀ t1 ∈ lead, ∀ t2 ∈ follow, ∀ q, NewPair s.ts t.ts t1 t2 p b q → GoodPair s t R q) ∧
      ¬ BadAct lead follow p b := by
  have main : ∀ t1 ∈ lead, ∀ t2 ∈ follow, (∀ q, NewPair s.ts t.ts t1 t2 p b q → GoodPair s t R q) ∧
      ¬ Cut t1 t2 p b := by
    intro t1 ht1 t2 ht2
    obtain ⟨hl, hm, hw⟩ := hloc t1 ht1 t2 ht2
    have hboth := hans.both t1 ht1 t2 ht2
    unfold NewPair Cut
    dsimp only
    generalize (if b = true then t1.target else t2.target) = left at hl hm hw hboth ⊢
    generalize (if b = true then t2.target else t1.target) = right at hl hm hw hboth ⊢
    obtain ⟨bl, hbl⟩ := hs.good.bounds _ hl
    obtain ⟨br, hbr⟩ := ht.good.bounds _ hm
    have hpost := post_linked hs ht hR hp (k1 t1 ht1) (k2 t2 ht2) hboth hl hbl (hw bl br hbl hbr)
      (Bounds.weaker_add_left _ _)
    constructor
    · intro q hq
      unfold StatePair.extrapolate at hq
      obtain ⟨b1, e1, hq⟩ := bind_ok hq
      obtain ⟨b2, e2, hq⟩ := bind_ok hq
      have e1 : s.localBounds left = .ok b1 := e1
      have e2 : t.localBounds right = .ok b2 := e2
      rw [hbl] at e1; cases e1
      rw [hbr] at e2; cases e2
      cases hq
      refine ⟨hl, hm, bl, br, hbl, hbr, fun u hu => ?_⟩
      obtain ⟨w, hw, he⟩ := extrapolate_equiv _ _ _ hu
      obtain ⟨w', he', hlink⟩ := hpost w (mem_applyInvariants.1 hw).1
      exact ⟨w', equiv_trans he he', hlink⟩
    · rintro ⟨w, hw, hn⟩
      obtain ⟨w', he', hlink⟩ := hpost w hw
      have hv := den_valid hw
      have hin : w ∈ InvSet right := ht.covers.inv hm hbr _ _ hlink.1 hv
        ((Bounds.weaker_add_right _ _).equiv he').symm (linked_inv hs ht hlink).2
      apply hn
      rw [den_down]
      refine ⟨hv, 0, le_refl _, ?_⟩
      rw [delay_zero]
      exact mem_applyInvariants.2 ⟨hw, hin⟩
  refine ⟨fun t1 h1 t2 h2 => (main t1 h1 t2 h2).1, ?_⟩
  rintro (⟨u, hu, ⟨t1, ht1, ha⟩, hn⟩ | ⟨t1, ht1, t2, ht2, hc⟩)
  · obtain ⟨u', he, hlink⟩ := hp u hu
    have hv := den_valid hu
    have hc := (k1 t1 ht1).take u u' hv hlink.1 he (C06_allowed_sound t1 (k1 t1 ht1).upd ha)
    obtain ⟨t2, ht2, hc2⟩ := hans.some t1 ht1 u' hlink hc
    exact hn t2 ht2 ((mem_allowed (k2 t2 ht2).upd ((k2 t2 ht2).agree u' hlink)).2
      ((k2 t2 ht2).take u' u hlink.1 hv he.symm hc2))
  · exact (main t1 ht1 t2 ht2).2 hc

/-- The transitions of both sides for one output. -/
theorem sides_output (hs : s.Regular) (ht : t.Regular) {p : StatePair F} (hl : s.IsLoc p.l1)
    (hm : t.IsLoc p.l2) {b1 b2 : Bounds} (hb1 : s.localBounds p.l1 = .ok b1)
    (hb2 : t.localBounds p.l2 = .ok b2) {a : String} (ha : a ∈ s.ts.outputs) {o1 o2 : List (Transition F)}
    (h1 : s.ts.nextOutputs p.l1 a = .ok o1) (h2 : outputs2 s.ts t.ts p a = .ok o2) :
    (∀ x ∈ o1, Side s p.l1 b1 x) ∧ ∀ x ∈ o2, Side t p.l2 b2 x := by
  constructor
  · unfold TS.nextOutputs at h1
    rw [if_pos (by simpa using ha)] at h1
    exact fun x hx => side_next hs hl hb1 (by simp [TS.hasAction, ha]) h1 hx
  · unfold outputs2 at h2
    split at h2
    · cases h2
      intro x hx
      rw [List.mem_singleton] at hx; subst hx
      exact side_stay ht hm hb2
    · unfold TS.nextOutputs at h2
      split at h2
      · rename_i hc
        exact fun x hx => side_next ht hm hb2 (by simp [TS.hasAction]; right; simpa using hc) h2 hx
      · cases h2

theorem sides_input (hs : s.Regular) (ht : t.Regular) {p : StatePair F} (hl : s.IsLoc p.l1)
    (hm : t.IsLoc p.l2) {b1 b2 : Bounds} (hb1 : s.localBounds p.l1 = .ok b1)
    (hb2 : t.localBounds p.l2 = .ok b2) {a : String} (ha : a ∈ t.ts.inputs) {i1 i2 : List (Transition F)}
    (h1 : inputs1 s.ts t.ts p a = .ok i1) (h2 : t.ts.nextInputs p.l2 a = .ok i2) :
    (∀ x ∈ i1, Side s p.l1 b1 x) ∧ ∀ x ∈ i2, Side t p.l2 b2 x := by
  constructor
  · unfold inputs1 at h1
    split at h1
    · cases h1
      intro x hx
      rw [List.mem_singleton] at hx; subst hx
      exact side_stay hs hl hb1
    · unfold TS.nextInputs at h1
      split at h1
      · rename_i hc
        exact fun x hx => side_next hs hl hb1 (by simp [TS.hasAction]; left; simpa using hc) h1 hx
      · cases h1
  · unfold TS.nextInputs at h2
    rw [if_pos (by simpa using ha)] at h2
    exact fun x hx => side_next ht hm hb2 (by simp [TS.hasAction, ha]) h2 hx

/-- If there is a refinement relation, then from good pairs the exploration only gets to good pairs, and
no comparison fails there. -/
theorem good_explored (hs : s.Regular) (ht : t.Regular) (hdis : s.DisjointClocks t)
    (hR : IsRefinement s.ts t.ts R) (hO : ∀ a ∈ ordO, a ∈ s.ts.outputs) (hI : ∀ a ∈ ordI, a ∈ t.ts.inputs)
    {p : StatePair F} (hp : GoodPair s t R p) :
    (∀ q, ZStep s.ts t.ts ordO ordI p q → GoodPair s t R q) ∧ ¬ Bad s.ts t.ts ordO ordI p := by
  obtain ⟨hl, hm, b1, b2, hb1, hb2, hz⟩ := hp
  have outs : ∀ a ∈ ordO, ∀ o1 o2, s.ts.nextOutputs p.l1 a = .ok o1 → outputs2 s.ts t.ts p a = .ok o2 →
      (∀ t1 ∈ o1, ∀ t2 ∈ o2, ∀ q, NewPair s.ts t.ts t1 t2 p true q → GoodPair s t R q) ∧
        ¬ BadAct o1 o2 p true := by
    intro a ha o1 o2 h1 h2
    obtain ⟨s1, s2⟩ := sides_output hs ht hl hm hb1 hb2 (hO a ha) h1 h2
    exact compare_good hs ht hR hz (answered_output hs ht hdis hR hl hm (hO a ha) h1 h2)
      (fun x hx => (s1 x hx).known_left hs) (fun x hx => (s2 x hx).known_right ht)
      (fun t1 ht1 t2 ht2 => ⟨(s1 t1 ht1).loc, (s2 t2 ht2).loc, fun bl br h1 h2 =>
        ((s1 t1 ht1).next bl h1).add ((s2 t2 ht2).next br h2)⟩)
  have ins : ∀ a ∈ ordI, ∀ i1 i2, inputs1 s.ts t.ts p a = .ok i1 → t.ts.nextInputs p.l2 a = .ok i2 →
      (∀ t1 ∈ i2, ∀ t2 ∈ i1, ∀ q, NewPair s.ts t.ts t1 t2 p false q → GoodPair s t R q) ∧
        ¬ BadAct i2 i1 p false := by
    intro a ha i1 i2 h1 h2
    obtain ⟨s1, s2⟩ := sides_input hs ht hl hm hb1 hb2 (hI a ha) h1 h2
    exact compare_good hs ht hR hz (answered_input hs ht hdis hR hl hm (hI a ha) h1 h2)
      (fun x hx => (s2 x hx).known_right ht) (fun x hx => (s1 x hx).known_left hs)
      (fun t1 ht1 t2 ht2 => ⟨(s1 t2 ht2).loc, (s2 t1 ht1).loc, fun bl br h1 h2 =>
        ((s1 t2 ht2).next bl h1).add ((s2 t1 ht1).next br h2)⟩)
  constructor
  · rintro q (⟨a, ha, o1, o2, h1, h2, t1, ht1, t2, ht2, hq⟩ | ⟨a, ha, o1, o2, h1, h2, t1, ht1, t2, ht2, hq⟩)
    · exact (outs a ha o1 o2 h1 h2).1 t1 ht1 t2 ht2 q hq
    · exact (ins a ha o1 o2 h1 h2).1 t1 ht1 t2 ht2 q hq
  · rintro (⟨a, ha, o1, o2, h1, h2, hb⟩ | ⟨a, ha, o1, o2, h1, h2, hb⟩)
    · exact (outs a ha o1 o2 h1 h2).2 hb
    · exact (ins a ha o1 o2 h1 h2).2 hb

end Refine

/-- The valuations of the initial zone are those where some time passed since all clocks were zero. -/
theorem init_is_delay {u : Val} (h : u ∈ den (init : F)) : ∃ d, 0 ≤ d ∧ u = delay (dim F) zeroVal d := by
  rw [den_init] at h
  obtain ⟨⟨h0, hpos, hbig⟩, heq⟩ := h
  by_cases hd : 1 < dim F
  · refine ⟨u 1, hpos 1, funext fun i => ?_⟩
    unfold delay zeroVal
    split
    · rename_i hi
      rw [zero_add]; exact heq i 1 hi.1 hi.2 (by norm_num) hd
    · rename_i hi
      rcases Nat.eq_zero_or_pos i with rfl | hi'
      · exact h0
      · exact hbig i (by omega)
  · refine ⟨0, le_refl _, funext fun i => ?_⟩
    rw [delay_zero]
    rcases Nat.eq_zero_or_pos i with rfl | hi'
    · exact h0
    · exact hbig i (by omega)

/-- The moves of one side are open if that side's are. -/
theorem Sys.side_opened {s : Sys F} (hs : s.Good) (ho : s.ts.TargetsOpen) {x : LocTree F} {v w : Val}
    (hw : s.ts.Reach x w) (hv : Valid (dim F) v) (hag : ∀ i ∈ s.clocks, v i = w i) {a : String}
    {ts : List (Transition F)} (hts : s.sideMoves x a = .ok ts) : ∀ t ∈ ts, v ∈ den t.guard → CanTake t v := by
  intro t ht hg
  obtain ⟨hx, hwv⟩ := hs.reach hw
  obtain ⟨ts', hts', g⟩ := sideMoves_good hs hx a
  rw [hts] at hts'; cases hts'
  refine (g t ht).2.canTake_congr hwv hv (fun i hi => (hag i hi).symm) ?_
  have hg := (g t ht).2.guard _ _ hv hwv hag hg
  refine ⟨hg, ?_⟩
  unfold sideMoves at hts
  split at hts
  · rename_i ha
    exact ho x w a ts hw ha hts t ht hg
  · cases hts
    rw [List.mem_singleton] at ht; subst ht
    exact Sys.Reach.inv hw

theorem Sys.IsProd.opened {s l r : Sys F} {c : CompType} (h : s.IsProd l r c) (hs : s.Good)
    (hl : l.Good) (hr : r.Good) (hdis : l.DisjointClocks r) (dl : l.ts.TargetsOpen)
    (dr : r.ts.TargetsOpen) : s.ts.TargetsOpen := by
  intro x v a trans hre ha htr t ht hg
  obtain ⟨xl, xr, hx, ⟨w1, hw1, hag1⟩, w2, hw2, hag2⟩ := h.project hs hl hr hdis hre
  have hv := (hs.reach hre).2
  obtain ⟨ls, hls, gls⟩ := sideMoves_good hl (hl.reach hw1).1 a
  obtain ⟨rs, hrs, grs⟩ := sideMoves_good hr (hr.reach hw2).1 a
  have htr : s.next x a = .ok trans := htr
  rw [h.moves x xl xr a ha hx, hls, hrs] at htr
  simp only [ok_bind] at htr
  obtain ⟨p, hp, hc⟩ := forall2_mem_right (mapM_ok.1 htr) t ht
  obtain ⟨a, ha, hp⟩ := List.mem_flatMap.1 hp
  obtain ⟨b, hb, rfl⟩ := List.mem_map.1 hp
  refine ((canTake_combine hdis (gls a ha).2 (grs b hb).2 h.kind hc).2 ⟨?_, ?_⟩).2 <;>
  obtain ⟨i, y, hy, h'⟩ := combine_ok (l := a) (r := b) h.kind <;>
  · rw [h'] at hc; cases hc
    rw [den_inter] at hg
    first
    | exact side_opened hl dl hw1 hv hag1 hls a ha hg.1
    | exact side_opened hr dr hw2 hv hag2 hrs b hb hg.2

theorem Sys.IsProd.agree {s l r : Sys F} {c : CompType} (h : s.IsProd l r c) (hs : s.Good)
    (hl : l.Good) (hr : r.Good) (hdis : l.DisjointClocks r) (dl : l.ts.UpdatesAgree)
    (dr : r.ts.UpdatesAgree) : s.ts.UpdatesAgree := by
  intro x v a trans hre ha htr t ht
  obtain ⟨xl, xr, hx, ⟨w1, hw1, hag1⟩, w2, hw2, hag2⟩ := h.project hs hl hr hdis hre
  obtain ⟨ls, hls, gls⟩ := sideMoves_good hl (hl.reach hw1).1 a
  obtain ⟨rs, hrs, grs⟩ := sideMoves_good hr (hr.reach hw2).1 a
  have htr : s.next x a = .ok trans := htr
  rw [h.moves x xl xr a ha hx, hls, hrs] at htr
  simp only [ok_bind] at htr
  obtain ⟨p, hp, hc⟩ := forall2_mem_right (mapM_ok.1 htr) t ht
  obtain ⟨y, hy, hp⟩ := List.mem_flatMap.1 hp
  obtain ⟨z, hz, rfl⟩ := List.mem_map.1 hp
  have one : ∀ {q : Sys F} {xq : LocTree F} {w : Val} {ms : List (Transition F)}, q.ts.UpdatesAgree →
      q.ts.Reach xq w → q.sideMoves xq a = .ok ms → ∀ m ∈ ms, NoConflict m.updates := by
    intro q xq w ms hq hw hms m hm
    unfold sideMoves at hms
    split at hms
    · rename_i ha
      exact hq xq w a ms hw ha hms m hm
    · cases hms
      rw [List.mem_singleton] at hm; subst hm
      intro u hu; cases hu
  have n1 := one dl hw1 hls y hy
  have n2 := one dr hw2 hrs z hz
  obtain ⟨i, m, hm, h'⟩ := combine_ok (l := y) (r := z) h.kind
  dsimp only at hc
  rw [h'] at hc; cases hc
  intro u hu u' hu' e
  rcases List.mem_append.1 hu with h1 | h1 <;> rcases List.mem_append.1 hu' with h2 | h2
  · exact n1 u h1 u' h2 e
  · exact (hdis _ ((gls y hy).2.own u h1) (e ▸ (grs z hz).2.own u' h2)).elim
  · exact (hdis _ ((gls y hy).2.own u' h2) (e ▸ (grs z hz).2.own u h1)).elim
  · exact n2 u h1 u' h2 e

/-! ## Tests for the conditions on a component -/

/-- All comparisons of the guard are comparisons of a declared clock with a literal. -/
def BoolE.plainB (d : Decls) (g : BoolE) : Bool :=
  g.comparisons.all fun p =>
    match p with
    | (.var n, .int _) => (d.clocks.lookup n).isSome
    | (.int _, .var n) => (d.clocks.lookup n).isSome
    | _ => false

theorem BoolE.plain_of_plainB {d : Decls} {g : BoolE} (h : g.plainB d = true) : g.Plain d := by
  intro p hp
  have := List.all_eq_true.1 h p hp
  split at this
  · obtain ⟨i, hi⟩ := Option.isSome_iff_exists.1 this
    exact ⟨_, i, _, .inl ⟨⟨lookup_mem hi, .inr ⟨rfl, hi⟩⟩, rfl⟩⟩
  · obtain ⟨i, hi⟩ := Option.isSome_iff_exists.1 this
    exact ⟨_, i, _, .inr ⟨rfl, ⟨lookup_mem hi, .inr ⟨rfl, hi⟩⟩⟩⟩
  · cases this

def Component.plainB (c : Component) : Bool :=
  (c.edges.all fun e => (e.guard.map (·.plainB c.decls)).getD true) &&
  (c.locations.all fun l => (l.invariant.map (·.plainB c.decls)).getD true) &&
  c.locations.all fun l => !(l.ty == .universal || l.ty == .inconsistent) ||
    (l.invariant.isNone && c.edges.all fun e => e.source != l.id)

theorem Component.plain_of_plainB {c : Component} (h : c.plainB = true) : c.Plain := by
  simp only [Component.plainB, Bool.and_eq_true, List.all_eq_true] at h
  obtain ⟨⟨h1, h2⟩, h3⟩ := h
  refine ⟨?_, ?_⟩
  · rintro g (⟨e, he, hg⟩ | ⟨l, hl, hg⟩)
    · have := h1 e he
      rw [hg] at this
      exact BoolE.plain_of_plainB this
    · have := h2 l hl
      rw [hg] at this
      exact BoolE.plain_of_plainB this
  · intro l hl ht
    have := h3 l hl
    simp only [Bool.or_eq_true, Bool.not_eq_true', Bool.or_eq_false_iff, beq_eq_false_iff_ne, Bool.and_eq_true,
      Option.isNone_iff_eq_none, List.all_eq_true, bne_iff_ne] at this
    rcases this with ⟨h, h'⟩ | h
    · rcases ht with ht | ht
      · exact absurd ht h
      · exact absurd ht h'
    · exact h

/-- The guard of every edge implies that the edge can be taken. -/
def CompComp.openB (x : CompComp F) : Bool :=
  x.edges.all fun p => p.2.all fun e => isEmpty (subtraction e.2.guard e.2.allowed)

theorem CompComp.open_of_openB {x : CompComp F} (hx : (Sys.comp x).Good) (h : x.openB = true) :
    (Sys.comp x).ts.TargetsOpen := by
  intro l v a trans hr ha hn t ht hg
  have hgood := (hx.next_ok (hx.reach hr).1 ha hn t ht).2
  have hn : x.next l a = .ok trans := hn
  unfold CompComp.next at hn
  split at hn
  · cases hn
  split at hn
  · cases hn; rw [List.mem_singleton.1 ht]; exact Sys.Reach.inv hr
  split at hn
  · cases hn; rw [List.mem_singleton.1 ht]; exact Sys.Reach.inv hr
  split at hn
  · cases hn
  · rename_i es hes
    cases hn
    obtain ⟨e, he, rfl⟩ := List.mem_map.1 ht
    have := List.all_eq_true.1 (List.all_eq_true.1 h _ (lookup_mem hes)) e (List.mem_filter.1 he).1
    have he' := (ZoneLib.isEmpty_iff _).1 this
    by_contra hno
    have hmem : v ∈ den (subtraction e.2.guard e.2.allowed) := by
      rw [den_subtraction]
      exact ⟨hg, fun hal => hno (C06_allowed_sound _ hgood.upd hal).2⟩
    rw [he'] at hmem; cases hmem

theorem Sys.QuotParts.opened {T S Q : Sys F} {clock : Nat} (h : Sys.QuotParts T S clock)
    (hQ : Sys.newQuotientUnchecked T S clock = .ok Q) : Q.ts.TargetsOpen := by
  intro x v a trans hr ha hn t ht hg
  obtain ⟨hv, hx⟩ := h.state hQ hr
  have hinv := Sys.Reach.inv hr
  have ha : Q.hasAction a = true := ha
  have hn : Q.next x a = .ok trans := hn
  obtain ⟨_, rfl⟩ := Sys.newQuotient_eq hQ
  rcases hx with ⟨lt, ls, rfl, hlt, hls, _, _⟩ | rfl | rfl
  · obtain ⟨tt, st, _, _, _, _, hnext⟩ := Sys.quotient_pair_next h.goodT h.goodS hlt hls ha
    rw [hnext] at hn; cases hn
    obtain ⟨_, _, _, t', _, hc, e1, e2⟩ :=
      (Sys.quotient_act h.h0 h.hn ha hnext hv).2 ⟨_, ⟨t, ht, hg, rfl, rfl⟩, rfl⟩
    rw [e1, e2]; exact hc.2
  · rw [Sys.next_quotient ha] at hn
    cases hn
    rw [List.mem_singleton] at ht; subst ht; exact hinv
  · rw [Sys.next_quotient ha] at hn
    have e : (LocTree.errorLoc clock : LocTree F).isInconsistent = true := rfl
    rw [if_pos e] at hn
    split at hn <;> cases hn
    · rw [List.mem_singleton] at ht; subst ht; exact hinv
    · cases ht

/-- A system in the fragment the theorems are about: a tree of compositions, conjunctions and quotients, with
different clocks in different components, of components that compare clocks with literals only, assign at
most one value to a clock on an edge, have invariants that hold earlier if they hold later (upper bounds),
and have no edge whose guard holds in a reached state but whose target cannot be entered.  The second operand of a
quotient has no input with the name the quotient uses for the input it adds. -/
inductive Sys.Ordinary : Sys F → Prop
  | comp {order : List (LocId × LocTree F) → List (LocId × LocTree F)} {c : Component}
      {ins outs : List String} {id : Nat} {x : CompComp F} (hc : c.Ok (dim F)) (hp : c.Plain)
      (ho : ∀ l, (order l).Perm l) (h : CompComp.compileWith order c ins outs id = .ok x)
      (ha : x.EdgesAgree) (hpast : ∀ l, (Sys.comp x).IsLoc l → PastClosed l)
      (hopen : (Sys.comp x).ts.TargetsOpen) : Ordinary (.comp x)
  | composition {l r s : Sys F} (hl : Ordinary l) (hr : Ordinary r) (h : Sys.newComposition l r = .ok s)
      (hd : l.DisjointClocks r) : Ordinary s
  | conjunction {l r s : Sys F} (hl : Ordinary l) (hr : Ordinary r)
      (h : Sys.newConjunctionUnchecked l r = .ok s) (hd : l.DisjointClocks r) : Ordinary s
  | quotient {t s q : Sys F} {clock : Nat} (ht : Ordinary t) (hs : Ordinary s) (h0 : 0 < clock)
      (hn : clock < dim F) (h : Sys.newQuotientUnchecked t s clock = .ok q) (hd : t.DisjointClocks s)
      (hf : ∀ a ∈ q.inputs, a ∉ t.inputs → a ∉ s.outputs → a ∉ s.inputs) : Ordinary q

namespace Sys.Ordinary

theorem plain {s : Sys F} (h : s.Ordinary) : s.OfPlain := by
  induction h with
  | comp hc hp ho h => exact .comp hc hp ho h
  | composition _ _ h _ ihl ihr => exact .composition ihl ihr h
  | conjunction _ _ h _ ihl ihr => exact .conjunction ihl ihr h
  | quotient _ _ h0 hn h _ _ iht ihs => exact .quotient iht ihs h0 hn h

theorem past {s : Sys F} (h : s.Ordinary) : ∀ l, s.IsLoc l → PastClosed l := by
  induction h with
  | comp _ _ _ _ _ hpast => exact hpast
  | composition _ _ h _ ihl ihr =>
    obtain ⟨_, rfl⟩ := newComposition_eq h
    rintro x ⟨a, b, ha, hb, hx⟩ v d hv hd hm
    rw [mem_compose_inv hx] at *
    exact ⟨ihl a ha v d hv hd hm.1, ihr b hb v d hv hd hm.2⟩
  | conjunction _ _ h _ ihl ihr =>
    obtain ⟨_, _, rfl⟩ := newConjunction_eq h
    rintro x ⟨a, b, ha, hb, hx⟩ v d hv hd hm
    rw [mem_compose_inv hx] at *
    exact ⟨ihl a ha v d hv hd hm.1, ihr b hb v d hv hd hm.2⟩
  | quotient _ _ h0 hn h _ _ _ _ =>
    obtain ⟨_, rfl⟩ := newQuotient_eq h
    rintro l (⟨lt, ls, _, _, rfl⟩ | rfl | rfl)
    · intro v d _ _ _ i hi; cases hi
    · intro v d _ _ _ i hi; cases hi
    · exact pastClosed_errorLoc h0 hn

theorem product {s : Sys F} (h : s.Ordinary) : s.PlainProduct := by
  induction h with
  | comp hc _ ho h ha => exact .comp hc ho h ha
  | composition _ _ h hd ihl ihr => exact .composition ihl ihr h hd
  | conjunction _ _ h hd ihl ihr => exact .conjunction ihl ihr h hd
  | quotient ht hs h0 hn h hd hf iht ihs => exact .quotient iht ihs h0 hn h hd ht.past hs.past hf

theorem agree {s : Sys F} (h : s.Ordinary) : s.ts.UpdatesAgree := h.product.calm.agree h.plain.accepted.good

theorem parts {t s : Sys F} {clock : Nat} (ht : t.Ordinary) (hs : s.Ordinary) (h0 : 0 < clock) (hn : clock < dim F)
    (hd : t.DisjointClocks s) : QuotParts t s clock :=
  ⟨ht.plain.accepted.good, hs.plain.accepted.good, h0, hn, hd, ht.product.calm, hs.product.calm, ht.past, hs.past⟩

theorem opened {s : Sys F} (h : s.Ordinary) : s.ts.TargetsOpen := by
  induction h with
  | comp _ _ _ _ _ _ ho => exact ho
  | composition hl hr h hd ihl ihr =>
    exact (isProd_composition h).opened (Accepted.composition hl.plain.accepted hr.plain.accepted h).good
      hl.plain.accepted.good hr.plain.accepted.good hd ihl ihr
  | conjunction hl hr h hd ihl ihr =>
    exact (isProd_conjunction h).opened (Accepted.conjunction hl.plain.accepted hr.plain.accepted h).good
      hl.plain.accepted.good hr.plain.accepted.good hd ihl ihr
  | quotient ht hs h0 hn h hd _ _ _ => exact (parts ht hs h0 hn hd).opened h

/-- The determinism check supplies the rest. -/
theorem regular {s : Sys F} (h : s.Ordinary) {ord : List Bool → Orders} (hord : s.ActOrders ord)
    {fuel : Nat} (hc : s.precheck ord fuel = .ok none) : s.Regular := by
  refine ⟨h.plain.accepted.good, h.plain.covers, h.past, h.agree, ?_, h.opened⟩
  obtain ⟨o, h1, h2⟩ := bind_ok hc
  cases o with
  | some f => cases h2
  | none => exact C13_check h.product ord hord fuel h1

/-- A system that passed the consistency check starts with all clocks zero. -/
theorem starts {s : Sys F} (h : s.Ordinary) {ord : List Bool → Orders} {fuel : Nat}
    (hc : s.checkCons ord fuel = .ok none) :
    ∀ l, s.ts.initialLoc = .ok (some l) → zeroVal ∈ InvSet l := by
  induction h generalizing ord with
  | @comp _ _ _ _ _ x hc' hp ho h ha hpast hopen =>
    intro l hl
    unfold checkCons isLeastConsistent at hc
    obtain ⟨o, h1, h2⟩ := bind_ok hc
    have h1 : (Sys.comp x).initialState = .ok o := h1
    have hl' : (Sys.comp x).initialLoc = .ok (some l) := hl
    unfold initialState at h1
    rw [hl'] at h1
    simp only [ok_bind] at h1
    unfold State.fromLocation at h1
    dsimp only at h1
    split at h1
    · cases h1; cases h2
    · rename_i he
      have : den (l.applyInvariants (init : F)) ≠ ∅ := fun e => he ((ZoneLib.isEmpty_iff _).2 e)
      obtain ⟨u, hu⟩ := Set.nonempty_iff_ne_empty.2 this
      obtain ⟨hu, hi⟩ := mem_applyInvariants.1 hu
      obtain ⟨d, hd, rfl⟩ := init_is_delay hu
      have hloc : (Sys.comp x).IsLoc l := by
        obtain ⟨o, e1, e2⟩ := (Accepted.comp hc' ho h).good.initial
        rw [e1] at hl'; cases hl'; exact e2 _ rfl
      exact hpast l hloc _ d zeroVal_valid hd hi
  | composition hl hr h hd ihl ihr =>
    have hi := (isProd_composition h).init
    obtain ⟨_, rfl⟩ := newComposition_eq h
    intro x hx
    obtain ⟨a, b, ha, hb, hx⟩ := hi x hx
    rw [checkCons] at hc
    obtain ⟨o, h1, h2⟩ := bind_ok hc
    cases o with
    | some f => cases h2
    | none => rw [mem_compose_inv hx]; exact ⟨ihl h1 a ha, ihr h2 b hb⟩
  | conjunction hl hr h hd ihl ihr =>
    have hi := (isProd_conjunction h).init
    obtain ⟨_, _, rfl⟩ := newConjunction_eq h
    intro x hx
    obtain ⟨a, b, ha, hb, hx⟩ := hi x hx
    rw [checkCons] at hc
    obtain ⟨o, h1, h2⟩ := bind_ok hc
    cases o with
    | some f => cases h2
    | none => rw [mem_compose_inv hx]; exact ⟨ihl h1 a ha, ihr h2 b hb⟩
  | quotient ht hs h0 hn h hd _ _ _ =>
    obtain ⟨_, rfl⟩ := newQuotient_eq h
    intro x hx
    have hx : initialLoc _ = _ := hx
    unfold initialLoc at hx
    obtain ⟨o1, _, hx⟩ := bind_ok hx
    cases o1 with
    | none => cases hx
    | some a =>
      obtain ⟨o2, _, hx⟩ := bind_ok hx
      cases o2 <;> cases hx
      intro i hi; cases hi

end Sys.Ordinary

/-- If the refinement check answers that `s` does not refine `t`, for another reason than that the
determinism or consistency check of one side failed, it does not: no relation between their concrete states
is kept by outputs, inputs and delays.

Missing from the full property: see `Sys.Ordinary` for the systems covered (for comparisons
with anything but a literal, for invariants that are not upper bounds and for transitions into a location
that cannot be entered the claim is false: `C55_violated_bounds`, `C55_violated_gap`,
`C55_violated_closed_target`). -/
theorem C55_refuted_partial (s t : Sys F) (hs : s.Ordinary) (ht : t.Ordinary) (hdis : s.DisjointClocks t)
    (ord1 ord2 : List Bool → Orders) (h1 : s.ActOrders ord1) (h2 : t.ActOrders ord2) (ordO ordI : List String)
    (hordO : ∀ a, a ∈ ordO ↔ a ∈ s.ts.outputs) (hordI : ∀ a, a ∈ ordI ↔ a ∈ t.ts.inputs) (fuel : Nat)
    (f : RefFailure F) (hf : ∀ side g, f ≠ .precheck side g)
    (h : checkRefinement s t ord1 ord2 ordO ordI fuel = .ok (some f)) : ¬ Refines s.ts t.ts := by
  intro href
  unfold checkRefinement at h
  obtain ⟨o1, hp1, h⟩ := bind_ok h
  cases o1 with
  | some x => cases h; exact hf _ _ rfl
  | none =>
  obtain ⟨o2, hp2, h⟩ := bind_ok h
  cases o2 with
  | some x => cases h; exact hf _ _ rfl
  | none =>
  dsimp only at h
  rw [checkAlphabets_none.2 href.alphabets] at h
  have zs : ∀ l, s.ts.initialLoc = .ok (some l) → zeroVal ∈ InvSet l := by
    obtain ⟨o, _, e⟩ := bind_ok hp1
    cases o with
    | some f => cases e
    | none => exact hs.starts e
  have hs := hs.regular h1 hp1
  have ht := ht.regular h2 hp2
  dsimp only at h
  unfold Refine.explore at h
  rcases href.states with ⟨e1, e2⟩ | ⟨l, m, e1, e2, hst⟩
  · rw [e1, e2] at h; cases h
  obtain ⟨R, hR, h0⟩ := hst (zs l e1)
  rw [e1, e2] at h
  simp only [ok_bind] at h
  have rl : s.ts.Reach l zeroVal := .init e1 (zs l e1)
  have hzm : zeroVal ∈ InvSet m := canDelay_zero.1 (hR.delay h0 (canDelay_zero.2 (zs l e1))).1
  have rm : t.ts.Reach m zeroVal := .init e2 hzm
  split at h
  · rename_i he
    have := (ZoneLib.isEmpty_iff _).1 he
    have hmem : zeroVal ∈ den (m.applyInvariants (l.applyInvariants (init : F))) :=
      mem_applyInvariants.2 ⟨mem_applyInvariants.2 ⟨Sys.zero_init, zs l e1⟩, hzm⟩
    rw [this] at hmem; cases hmem
  obtain ⟨p, hp, h⟩ := bind_ok h
  obtain ⟨⟨r, c⟩, hmain, h⟩ := bind_ok h
  cases h
  have hgood : Refine.GoodPair s t R p := by
    unfold StatePair.extrapolate at hp
    obtain ⟨b1, hb1, hp⟩ := bind_ok hp
    obtain ⟨b2, hb2, hp⟩ := bind_ok hp
    cases hp
    refine ⟨(hs.good.reach rl).1, (ht.good.reach rm).1, b1, b2, hb1, hb2, fun u hu => ?_⟩
    obtain ⟨w, hw, he⟩ := extrapolate_equiv _ _ _ hu
    obtain ⟨hw, _⟩ := mem_applyInvariants.1 hw
    obtain ⟨hw, hwl⟩ := mem_applyInvariants.1 hw
    obtain ⟨d, hd, rfl⟩ := init_is_delay hw
    exact ⟨_, he, Refine.linked_delay hs ht hR ⟨Sys.zeroVal_valid, _, _, rl, rm, fun _ _ => rfl, fun _ _ => rfl, h0⟩
      hd hwl⟩
  obtain ⟨q, hq, hbad⟩ := Refine.mainLoop_fail (G := Refine.GoodPair s t R)
    (fun p q hp hq => (Refine.good_explored hs ht hdis hR (fun a => (hordO a).1) (fun a => (hordI a).1) hp).1 q hq)
    fuel (by
      intro q hq
      simp only [Waiting.put_queue, Waiting.new, List.mem_singleton] at hq
      subst hq; exact hgood) hmain
  exact (Refine.good_explored hs ht hdis hR (fun a => (hordO a).1) (fun a => (hordI a).1) hq).2 hbad

/-- When the determinism and consistency checks of both sides succeed and the right side allows the delays
the left side allows initially, the answer is "yes" exactly if `s` refines `t`. -/
theorem C55_exact_partial (s t : Sys F) (hs : s.Ordinary) (ht : t.Ordinary) (hdis : s.DisjointClocks t)
    (hinit : ∀ l m, s.ts.initialLoc = .ok (some l) → t.ts.initialLoc = .ok (some m) →
      ∀ d, TS.CanDelay l zeroVal d → TS.CanDelay m zeroVal d)
    (ord1 ord2 : List Bool → Orders) (h1 : s.ActOrders ord1) (h2 : t.ActOrders ord2) (ordO ordI : List String)
    (hordO : ∀ a, a ∈ ordO ↔ a ∈ s.ts.outputs) (hordI : ∀ a, a ∈ ordI ↔ a ∈ t.ts.inputs) (fuel : Nat)
    (o : Option (RefFailure F)) (ho : ∀ side g, o ≠ some (.precheck side g))
    (h : checkRefinement s t ord1 ord2 ordO ordI fuel = .ok o) : o = none ↔ Refines s.ts t.ts := by
  constructor
  · rintro rfl
    refine C16_refines_partial s t hs.plain.accepted ht.plain.accepted hdis hs.agree ht.agree ?_ hinit ord1 ord2
      ordO ordI hordO hordI fuel h
    intro m w hr v d e hv _ hd hde he
    refine ht.past m (ht.plain.accepted.good.reach hr).1 _ (e - d) (delay_valid hv hd) (by linarith) ?_
    rw [delay_add, add_sub_cancel]; exact he
  · intro href
    cases o with
    | none => rfl
    | some f =>
      exact absurd href (C55_refuted_partial s t hs ht hdis ord1 ord2 h1 h2 ordO ordI hordO hordI fuel f
        (fun side g e => ho side g (by rw [e])) h)

/-! ## A concrete case -/

theorem sysA_ordinary : sysA.Ordinary :=
  .comp exA_ok (Component.plain_of_plainB (by decide)) (fun _ => .refl _) (getOk_eq _) (by decide +kernel)
    (CompComp.past_of_pastB (by decide +kernel)) (CompComp.open_of_openB sysA_accepted.good (by decide +kernel))

theorem sysC_ordinary : sysC.Ordinary :=
  .comp exC_ok (Component.plain_of_plainB (by decide)) (fun _ => .refl _) (getOk_eq _) (by decide +kernel)
    (CompComp.past_of_pastB (by decide +kernel)) (CompComp.open_of_openB sysC_accepted.good (by decide +kernel))

/-- The refinement check failed, and not in a check of one of the sides. -/
def refuted : Res (Option (RefFailure F)) → Bool
  | .ok (some (.precheck _ _)) => false
  | .ok (some _) => true
  | _ => false

omit [ZoneLib F] in
theorem refuted_eq {r : Res (Option (RefFailure F))} (h : refuted r = true) :
    ∃ f, (∀ side g, f ≠ .precheck side g) ∧ r = .ok (some f) := by
  unfold refuted at h
  split at h
  · cases h
  · rename_i f hne
    exact ⟨f, fun side g e => hne side g (by rw [e]), rfl⟩
  · cases h

/-- The machine `A`, which answers within 2 to 5 time units, does not refine the machine `C`, which answers
within 3 to 4: the check says so. -/
example : ¬ Refines sysA.ts sysC.ts := by
  obtain ⟨f, hf, h⟩ := refuted_eq (r := checkRefinement sysA sysC exOrders exOrders ["out"] ["go"] 20)
    (by decide +kernel)
  refine C55_refuted_partial sysA sysC sysA_ordinary sysC_ordinary (by unfold Sys.DisjointClocks; decide +kernel)
    exOrders exOrders ?_ ?_ ["out"] ["go"] (fun _ => Iff.rfl) (fun _ => Iff.rfl) 20 f hf h
  · intro k
    exact ⟨by simp [exOrders], fun a => by
      have h1 : sysA.ts.inputs = ["go"] := by decide +kernel
      have h2 : sysA.ts.outputs = ["out"] := by decide +kernel
      change _ ↔ a ∈ sysA.ts.inputs ∨ a ∈ sysA.ts.outputs
      rw [h1, h2]; simp [exOrders]⟩
  · intro k
    exact ⟨by simp [exOrders], fun a => by
      have h1 : sysC.ts.inputs = ["go"] := by decide +kernel
      have h2 : sysC.ts.outputs = ["out"] := by decide +kernel
      change _ ↔ a ∈ sysC.ts.inputs ∨ a ∈ sysC.ts.outputs
      rw [h1, h2]; simp [exOrders]⟩

/-! ## Where the verdict is wrong -/

theorem act_split {ts : TS F} {l l' : LocTree F} {v v' : Val} {a : String} {trans : List (Transition F)}
    (hn : ts.next l a = .ok trans) (h : ts.Act l v a l' v') :
    ∃ t ∈ trans, CanTake t v ∧ l' = t.target ∧ v' = runUpdates t.updates v := by
  obtain ⟨_, tr, e, t, ht, hc, h1, h2⟩ := h
  rw [hn] at e; cases e
  exact ⟨t, ht, hc, h1, h2⟩

omit [ZoneLib F] in
theorem fit_of {S T : TS F} (h : (Refine.checkAlphabets S T).isNone = true) : AlphabetsFit S T :=
  checkAlphabets_none.1 (Option.isNone_iff_eq_none.1 h)

/-- Outputs `o`, then `p` at once. -/
def exUrgent : Component := ⟨"S", ⟨[], [("x", 1)]⟩,
  [⟨"L0", none, .initial, "NORMAL"⟩, ⟨"L1", some (.le (.var "x") (.int 0)), .normal, "NORMAL"⟩],
  [⟨"e0", "L0", "L1", .output, none, some [⟨"x", .int 0⟩], "o"⟩,
   ⟨"e1", "L1", "L0", .output, none, none, "p"⟩]⟩
/-- Outputs `o` at any time, but gets to `M1` up to time 3 and to `M2` after it. -/
def exForked : Component := ⟨"T", ⟨[], [("y", 2)]⟩,
  [⟨"M0", none, .initial, "NORMAL"⟩, ⟨"M1", some (.le (.var "y") (.int 3)), .normal, "NORMAL"⟩,
   ⟨"M2", none, .normal, "NORMAL"⟩],
  [⟨"f0", "M0", "M1", .output, none, none, "o"⟩,
   ⟨"f1", "M0", "M2", .output, some (.gt (.var "y") (.int 3)), none, "o"⟩,
   ⟨"f2", "M1", "M0", .output, none, none, "p"⟩,
   ⟨"f3", "M2", "M0", .output, none, none, "p"⟩]⟩

/-- How `exUrgent` refines `exForked`. -/
inductive ForkedRel (l0 l1 m0 m1 m2 : LocTree Fed4) : LocTree Fed4 → Val → LocTree Fed4 → Val → Prop
  | start {v w : Val} (hv : Valid 4 v) (hw : Valid 4 w) : ForkedRel l0 l1 m0 m1 m2 l0 v m0 w
  | early {v w : Val} (hv : Valid 4 v) (hw : Valid 4 w) (h1 : v 1 = 0) (h2 : w 2 ≤ 3) :
      ForkedRel l0 l1 m0 m1 m2 l1 v m1 w
  | late {v w : Val} (hv : Valid 4 v) (hw : Valid 4 w) (h1 : v 1 = 0) : ForkedRel l0 l1 m0 m1 m2 l1 v m2 w

/-- The full property is false: the left side outputs `o` and moves on at once, the right side can output
`o` at any time, through one of two transitions depending on its clock.  The check rejects this, because
one of the two does not lead anywhere at the other times and it takes this for a forbidden delay. -/
theorem C55_violated_closed_target :
    ∃ s t : Sys Fed4, s.Accepted ∧ t.Accepted ∧ s.OfPlain ∧ t.OfPlain ∧ s.DisjointClocks t ∧
      (∃ f, (∀ side g, f ≠ .precheck side g) ∧
        checkRefinement s t (exOrdersO [] ["o", "p"]) (exOrdersO [] ["o", "p"]) ["o", "p"] [] 10 = .ok (some f)) ∧
      Refines s.ts t.ts := by
  refine ⟨exComp exUrgent (by decide +kernel), exComp exForked (by decide +kernel),
    exComp_accepted (by decide), exComp_accepted (by decide),
    .comp (Component.ok_of_okB (by decide)) (Component.plain_of_plainB (by decide)) (fun _ => .refl _) (getOk_eq _),
    .comp (Component.ok_of_okB (by decide)) (Component.plain_of_plainB (by decide)) (fun _ => .refl _) (getOk_eq _),
    by unfold Sys.DisjointClocks; decide +kernel, refuted_eq (by decide +kernel), fit_of (by decide +kernel), .inr ?_⟩
  let l0 : LocTree Fed4 := .leaf (.simple "L0") none .initial
  let l1 : LocTree Fed4 := .leaf (.simple "L1") (some (constrain univ 1 0 (.LE 0))) .normal
  let m0 : LocTree Fed4 := .leaf (.simple "M0") none .initial
  let m1 : LocTree Fed4 := .leaf (.simple "M1") (some (constrain univ 2 0 (.LE 3))) .normal
  let m2 : LocTree Fed4 := .leaf (.simple "M2") none .normal
  have hl1 : ∀ {v : Val}, v ∈ InvSet l1 ↔ Valid 4 v ∧ v 1 - v 0 ≤ 0 := by
    intro v
    simp only [InvSet, Set.mem_ofPred_eq, l1, LocTree.inv, Option.some.injEq, forall_eq']
    rw [den_constrain _ _ _ _ (by decide) (by decide), den_univ]
    simp [Ineq.Sat, dim_fed4]
  have hm1 : ∀ {v : Val}, v ∈ InvSet m1 ↔ Valid 4 v ∧ v 2 - v 0 ≤ 3 := by
    intro v
    simp only [InvSet, Set.mem_ofPred_eq, m1, LocTree.inv, Option.some.injEq, forall_eq']
    rw [den_constrain _ _ _ _ (by decide) (by decide), den_univ]
    simp [Ineq.Sat, dim_fed4]
  have hnone : ∀ (i : LocId) (ty : LocType) (v : Val), v ∈ InvSet (.leaf i none ty : LocTree Fed4) := by
    intro i ty v j hj; cases hj
  have huniv : ∀ {v : Val}, v ∈ den (univ : Fed4) ↔ Valid 4 v := by intro v; rw [den_univ]; rfl
  generalize hS : (exComp exUrgent (by decide +kernel)).ts = S
  generalize hT : (exComp exForked (by decide +kernel)).ts = T
  have eS : S.initialLoc = .ok (some l0) := by subst hS; rfl
  have eT : T.initialLoc = .ok (some m0) := by subst hT; rfl
  have oS : S.outputs = ["o", "p"] := by subst hS; decide +kernel
  have iT : T.inputs = [] := by subst hT; decide +kernel
  have aT : ∀ a ∈ ["o", "p"], T.hasAction a = true := by subst hT; decide +kernel
  have s0o : S.next l0 "o" = .ok [⟨.simple "e0", univ, l1, [⟨1, 0⟩]⟩] := by subst hS; rfl
  have s0p : S.next l0 "p" = .ok [] := by subst hS; rfl
  have s1o : S.next l1 "o" = .ok [] := by subst hS; rfl
  have s1p : S.next l1 "p" = .ok [⟨.simple "e1", univ, l0, []⟩] := by subst hS; rfl
  have t0o : T.next m0 "o" = .ok [⟨.simple "f0", univ, m1, []⟩,
    ⟨.simple "f1", constrain univ 0 2 (.LS (-3)), m2, []⟩] := by subst hT; rfl
  have t1p : T.next m1 "p" = .ok [⟨.simple "f2", univ, m0, []⟩] := by subst hT; rfl
  have t2p : T.next m2 "p" = .ok [⟨.simple "f3", univ, m0, []⟩] := by subst hT; rfl
  have oT : ∀ a ∈ ["o", "p"], a ∈ T.outputs := by subst hT; decide +kernel
  refine ⟨l0, m0, eS, eT, fun _ => ⟨ForkedRel l0 l1 m0 m1 m2, ⟨?_, ?_, ?_⟩,
    .start Sys.zeroVal_valid Sys.zeroVal_valid⟩⟩
  · intro l v m w o l' v' hr ho hact
    rw [oS] at ho
    refine ⟨fun _ => ?_, fun hn => absurd (oT o ho) hn⟩
    have hvalid : ∀ {v : Val}, Valid 4 v → Valid 4 (assign v 1 0) := fun hv =>
      assign_valid hv (by decide) (by decide) (le_refl _)
    cases hr with
    | start hv hw =>
      simp only [List.mem_cons, List.not_mem_nil, or_false] at ho
      rcases ho with rfl | rfl
      · obtain ⟨t, ht, hc, rfl, rfl⟩ := act_split s0o hact
        rw [List.mem_singleton] at ht; subst ht
        have hv' : Valid 4 (runUpdates [⟨1, 0⟩] v) := by simpa [runUpdates] using hvalid hv
        by_cases hy : w 2 ≤ 3
        · exact ⟨m1, w, ⟨aT _ (by simp), _, t0o, _, .head _, ⟨huniv.2 hw, hm1.2 ⟨hw, by simp only [runUpdates]; rw [hw.1]; linarith⟩⟩, rfl, rfl⟩,
            .early hv' hw (by simp [runUpdates, assign]) hy⟩
        · refine ⟨m2, w, ⟨aT _ (by simp), _, t0o, _, .tail _ (.head _), ⟨?_, hnone _ _ _⟩, rfl, rfl⟩,
            .late hv' hw (by simp [runUpdates, assign])⟩
          rw [den_constrain _ _ _ _ (by decide) (by decide), den_univ]
          refine ⟨hw, ?_⟩
          simp only [Ineq.Sat]
          rw [hw.1]; push_cast; linarith
      · obtain ⟨t, ht, _⟩ := act_split s0p hact
        cases ht
    | early hv hw h1 h2 =>
      simp only [List.mem_cons, List.not_mem_nil, or_false] at ho
      rcases ho with rfl | rfl
      · obtain ⟨t, ht, _⟩ := act_split s1o hact
        cases ht
      · obtain ⟨t, ht, hc, rfl, rfl⟩ := act_split s1p hact
        rw [List.mem_singleton] at ht; subst ht
        exact ⟨m0, w, ⟨aT _ (by simp), _, t1p, _, .head _, ⟨huniv.2 hw, hnone _ _ _⟩, rfl, rfl⟩, .start hv hw⟩
    | late hv hw h1 =>
      simp only [List.mem_cons, List.not_mem_nil, or_false] at ho
      rcases ho with rfl | rfl
      · obtain ⟨t, ht, _⟩ := act_split s1o hact
        cases ht
      · obtain ⟨t, ht, hc, rfl, rfl⟩ := act_split s1p hact
        rw [List.mem_singleton] at ht; subst ht
        exact ⟨m0, w, ⟨aT _ (by simp), _, t2p, _, .head _, ⟨huniv.2 hw, hnone _ _ _⟩, rfl, rfl⟩, .start hv hw⟩
  · intro l v m w i m' w' _ hi
    rw [iT] at hi; cases hi
  · intro l v m w d hr hd
    have stay : ∀ {v : Val}, Valid 4 v → v 1 = 0 → TS.CanDelay l1 v d → d = 0 := by
      intro v hv h1 hd
      have h := (hl1.1 (hd.2 d hd.1 (le_refl _))).2
      simp [delay, dim_fed4, h1, hv.1] at h
      exact le_antisymm h hd.1
    have h0 := hd.1
    cases hr with
    | start hv hw =>
      exact ⟨⟨h0, fun _ _ _ => hnone _ _ _⟩, .start (delay_valid hv h0) (delay_valid hw h0)⟩
    | early hv hw h1 h2 =>
      have := stay hv h1 hd; subst this
      rw [delay_zero, delay_zero]
      exact ⟨canDelay_zero.2 (hm1.2 ⟨hw, by rw [hw.1]; linarith⟩), .early hv hw h1 h2⟩
    | late hv hw h1 =>
      have := stay hv h1 hd; subst this
      rw [delay_zero, delay_zero]
      exact ⟨canDelay_zero.2 (hnone _ _ _), .late hv hw h1⟩

/-- Outputs `p` within one time unit after `o`: its invariant holds again from 3 on, but there is no way
to get there. -/
def exGap : Component := ⟨"S", ⟨[], [("x", 1)]⟩,
  [⟨"L0", none, .initial, "NORMAL"⟩,
   ⟨"L1", some (.or (.le (.var "x") (.int 1)) (.ge (.var "x") (.int 3))), .normal, "NORMAL"⟩],
  [⟨"e0", "L0", "L1", .output, none, some [⟨"x", .int 0⟩], "o"⟩,
   ⟨"e1", "L1", "L0", .output, none, none, "p"⟩]⟩
/-- Outputs `p` within one time unit after `o`. -/
def exSoon : Component := ⟨"T", ⟨[], [("y", 2)]⟩,
  [⟨"M0", none, .initial, "NORMAL"⟩, ⟨"M1", some (.le (.var "y") (.int 1)), .normal, "NORMAL"⟩],
  [⟨"f0", "M0", "M1", .output, none, some [⟨"y", .int 0⟩], "o"⟩,
   ⟨"f1", "M1", "M0", .output, none, none, "p"⟩]⟩

/-- How `exGap` refines `exSoon`. -/
inductive GapRel (l0 l1 m0 m1 : LocTree Fed4) : LocTree Fed4 → Val → LocTree Fed4 → Val → Prop
  | start {v w : Val} (hv : Valid 4 v) (hw : Valid 4 w) : GapRel l0 l1 m0 m1 l0 v m0 w
  | waiting {v w : Val} (hv : Valid 4 v) (hw : Valid 4 w) (h1 : v 1 = w 2) (h2 : w 2 ≤ 1) :
      GapRel l0 l1 m0 m1 l1 v m1 w

/-- The full property is false: the check lets time pass through a gap in the invariant of the left side,
and rejects because the right side does not allow that. -/
theorem C55_violated_gap :
    ∃ s t : Sys Fed4, s.Accepted ∧ t.Accepted ∧ s.OfPlain ∧ t.OfPlain ∧ s.ts.TargetsOpen ∧ t.ts.TargetsOpen ∧
      s.DisjointClocks t ∧
      (∃ f, (∀ side g, f ≠ .precheck side g) ∧
        checkRefinement s t (exOrdersO [] ["o", "p"]) (exOrdersO [] ["o", "p"]) ["o", "p"] [] 10 = .ok (some f)) ∧
      Refines s.ts t.ts := by
  refine ⟨exComp exGap (by decide +kernel), exComp exSoon (by decide +kernel),
    exComp_accepted (by decide), exComp_accepted (by decide),
    .comp (Component.ok_of_okB (by decide)) (Component.plain_of_plainB (by decide)) (fun _ => .refl _) (getOk_eq _),
    .comp (Component.ok_of_okB (by decide)) (Component.plain_of_plainB (by decide)) (fun _ => .refl _) (getOk_eq _),
    CompComp.open_of_openB (exComp_accepted (by decide)).good (by decide +kernel),
    CompComp.open_of_openB (exComp_accepted (by decide)).good (by decide +kernel),
    by unfold Sys.DisjointClocks; decide +kernel, refuted_eq (by decide +kernel), fit_of (by decide +kernel), .inr ?_⟩
  let l0 : LocTree Fed4 := .leaf (.simple "L0") none .initial
  let l1 : LocTree Fed4 := .leaf (.simple "L1")
    (some (append (constrain univ 1 0 (.LE 1)) (constrain univ 0 1 (.LE (-3))))) .normal
  let m0 : LocTree Fed4 := .leaf (.simple "M0") none .initial
  let m1 : LocTree Fed4 := .leaf (.simple "M1") (some (constrain univ 2 0 (.LE 1))) .normal
  have hl1 : ∀ {v : Val}, v ∈ InvSet l1 ↔ Valid 4 v ∧ (v 1 - v 0 ≤ 1 ∨ v 0 - v 1 ≤ -3) := by
    intro v
    simp only [InvSet, Set.mem_ofPred_eq, l1, LocTree.inv, Option.some.injEq, forall_eq']
    rw [den_append, den_constrain _ _ _ _ (by decide) (by decide), den_constrain _ _ _ _ (by decide) (by decide),
      den_univ]
    simp [Ineq.Sat, dim_fed4, and_or_left]
  have hm1 : ∀ {v : Val}, v ∈ InvSet m1 ↔ Valid 4 v ∧ v 2 - v 0 ≤ 1 := by
    intro v
    simp only [InvSet, Set.mem_ofPred_eq, m1, LocTree.inv, Option.some.injEq, forall_eq']
    rw [den_constrain _ _ _ _ (by decide) (by decide), den_univ]
    simp [Ineq.Sat, dim_fed4]
  have hnone : ∀ (i : LocId) (ty : LocType) (v : Val), v ∈ InvSet (.leaf i none ty : LocTree Fed4) := by
    intro i ty v j hj; cases hj
  have huniv : ∀ {v : Val}, v ∈ den (univ : Fed4) ↔ Valid 4 v := by intro v; rw [den_univ]; rfl
  generalize hS : (exComp exGap (by decide +kernel)).ts = S
  generalize hT : (exComp exSoon (by decide +kernel)).ts = T
  have eS : S.initialLoc = .ok (some l0) := by subst hS; rfl
  have eT : T.initialLoc = .ok (some m0) := by subst hT; rfl
  have oS : S.outputs = ["o", "p"] := by subst hS; decide +kernel
  have iT : T.inputs = [] := by subst hT; decide +kernel
  have aT : ∀ a ∈ ["o", "p"], T.hasAction a = true := by subst hT; decide +kernel
  have s0o : S.next l0 "o" = .ok [⟨.simple "e0", univ, l1, [⟨1, 0⟩]⟩] := by subst hS; rfl
  have s0p : S.next l0 "p" = .ok [] := by subst hS; rfl
  have s1o : S.next l1 "o" = .ok [] := by subst hS; rfl
  have s1p : S.next l1 "p" = .ok [⟨.simple "e1", univ, l0, []⟩] := by subst hS; rfl
  have t0o : T.next m0 "o" = .ok [⟨.simple "f0", univ, m1, [⟨2, 0⟩]⟩] := by subst hT; rfl
  have t1p : T.next m1 "p" = .ok [⟨.simple "f1", univ, m0, []⟩] := by subst hT; rfl
  have oT : ∀ a ∈ ["o", "p"], a ∈ T.outputs := by subst hT; decide +kernel
  refine ⟨l0, m0, eS, eT, fun _ => ⟨GapRel l0 l1 m0 m1, ⟨?_, ?_, ?_⟩,
    .start Sys.zeroVal_valid Sys.zeroVal_valid⟩⟩
  · intro l v m w o l' v' hr ho hact
    rw [oS] at ho
    refine ⟨fun _ => ?_, fun hn => absurd (oT o ho) hn⟩
    cases hr with
    | start hv hw =>
      simp only [List.mem_cons, List.not_mem_nil, or_false] at ho
      rcases ho with rfl | rfl
      · obtain ⟨t, ht, hc, rfl, rfl⟩ := act_split s0o hact
        rw [List.mem_singleton] at ht; subst ht
        have hv' : Valid 4 (runUpdates [⟨1, 0⟩] v) := by
          simpa [runUpdates] using assign_valid hv (show 0 < 1 by decide) (by decide) (le_refl _)
        have hw' : Valid 4 (runUpdates [⟨2, 0⟩] w) := by
          simpa [runUpdates] using assign_valid hw (show 0 < 2 by decide) (by decide) (le_refl _)
        have hw2 : runUpdates [⟨2, 0⟩] w 2 = 0 := by simp [runUpdates, assign]
        refine ⟨m1, _, ⟨aT _ (by simp), _, t0o, _, .head _, ⟨huniv.2 hw, hm1.2 ⟨hw', ?_⟩⟩, rfl, rfl⟩,
            .waiting hv' hw' ?_ ?_⟩
        · dsimp only
          rw [hw2, hw'.1]; norm_num
        · dsimp only
          rw [hw2]; simp [runUpdates, assign]
        · dsimp only
          rw [hw2]; norm_num
      · obtain ⟨t, ht, _⟩ := act_split s0p hact
        cases ht
    | waiting hv hw h1 h2 =>
      simp only [List.mem_cons, List.not_mem_nil, or_false] at ho
      rcases ho with rfl | rfl
      · obtain ⟨t, ht, _⟩ := act_split s1o hact
        cases ht
      · obtain ⟨t, ht, hc, rfl, rfl⟩ := act_split s1p hact
        rw [List.mem_singleton] at ht; subst ht
        exact ⟨m0, w, ⟨aT _ (by simp), _, t1p, _, .head _, ⟨huniv.2 hw, hnone _ _ _⟩, rfl, rfl⟩, .start hv hw⟩
  · intro l v m w i m' w' _ hi
    rw [iT] at hi; cases hi
  · intro l v m w d hr hd
    have h0 := hd.1
    cases hr with
    | start hv hw =>
      exact ⟨⟨h0, fun _ _ _ => hnone _ _ _⟩, .start (delay_valid hv h0) (delay_valid hw h0)⟩
    | waiting hv hw h1 h2 =>
      have hle : v 1 + d ≤ 1 := by
        by_contra hc
        push Not at hc
        have hpos := hv.2.1 1
        rcases le_total d (2 - v 1) with hm | hm
        · have h := (hl1.1 (hd.2 d h0 (le_refl _))).2
          simp only [delay, dim_fed4, hv.1] at h
          norm_num at h
          rcases h with h | h <;> linarith
        · have h := (hl1.1 (hd.2 (2 - v 1) (by linarith) hm)).2
          simp only [delay, dim_fed4, hv.1] at h
          norm_num at h
      refine ⟨⟨h0, fun d' h1' h2' => hm1.2 ⟨delay_valid hw h1', ?_⟩⟩, .waiting (delay_valid hv h0)
        (delay_valid hw h0) ?_ ?_⟩
      · simp only [delay, dim_fed4, hw.1]
        norm_num
        linarith
      · simp only [delay, dim_fed4]; norm_num; exact h1
      · simp only [delay, dim_fed4]; norm_num; linarith

/-- Outputs `o` after one time unit and then `p` up to time 8. -/
def exSum (i : Nat) : Component := ⟨"S", ⟨[], [("x", i)]⟩,
  [⟨"L0", none, .initial, "NORMAL"⟩, ⟨"L1", none, .normal, "NORMAL"⟩],
  [⟨"e0", "L0", "L1", .output, some (.gt (.var "x") (.int 1)), none, "o"⟩,
   ⟨"e1", "L1", "L1", .output, some (.le (.add (.var "x") (.int 2)) (.int 10)), none, "p"⟩]⟩

/-- The full property is false: the check rejects that a component refines itself (the two sides are the
same component, with the clock indices the compilation of the query `refinement: S <= S` hands out),
because the bounds it extrapolates with do not account for the comparison of a sum with a literal. -/
theorem C55_violated_bounds :
    ∃ s t : Sys Fed4, s.Accepted ∧ t.Accepted ∧ s.ts.TargetsOpen ∧ t.ts.TargetsOpen ∧
      (∀ l, s.IsLoc l → PastClosed l) ∧ (∀ l, t.IsLoc l → PastClosed l) ∧ s.DisjointClocks t ∧
      (∃ f, (∀ side g, f ≠ .precheck side g) ∧
        checkRefinement s t (exOrdersO [] ["o", "p"]) (exOrdersO [] ["o", "p"]) ["o", "p"] [] 10 = .ok (some f)) ∧
      Refines s.ts t.ts := by
  refine ⟨exComp (exSum 1) (by decide +kernel), exComp (exSum 2) (by decide +kernel),
    exComp_accepted (by decide), exComp_accepted (by decide),
    CompComp.open_of_openB (exComp_accepted (by decide)).good (by decide +kernel),
    CompComp.open_of_openB (exComp_accepted (by decide)).good (by decide +kernel),
    CompComp.past_of_pastB (by decide +kernel), CompComp.past_of_pastB (by decide +kernel),
    by unfold Sys.DisjointClocks; decide +kernel, refuted_eq (by decide +kernel), fit_of (by decide +kernel), .inr ?_⟩
  let l0 : LocTree Fed4 := .leaf (.simple "L0") none .initial
  let l1 : LocTree Fed4 := .leaf (.simple "L1") none .normal
  have hnone : ∀ (i : LocId) (ty : LocType) (v : Val), v ∈ InvSet (.leaf i none ty : LocTree Fed4) := by
    intro i ty v j hj; cases hj
  generalize hS : (exComp (exSum 1) (by decide +kernel)).ts = S
  generalize hT : (exComp (exSum 2) (by decide +kernel)).ts = T
  have eS : S.initialLoc = .ok (some l0) := by subst hS; rfl
  have eT : T.initialLoc = .ok (some l0) := by subst hT; rfl
  have oS : S.outputs = ["o", "p"] := by subst hS; decide +kernel
  have iT : T.inputs = [] := by subst hT; decide +kernel
  have aT : ∀ a ∈ ["o", "p"], T.hasAction a = true := by subst hT; decide +kernel
  have oT : ∀ a ∈ ["o", "p"], a ∈ T.outputs := by subst hT; decide +kernel
  have s0o : S.next l0 "o" = .ok [⟨.simple "e0", constrain univ 0 1 (.LS (-1)), l1, []⟩] := by subst hS; rfl
  have s0p : S.next l0 "p" = .ok [] := by subst hS; rfl
  have s1o : S.next l1 "o" = .ok [] := by subst hS; rfl
  have s1p : S.next l1 "p" = .ok [⟨.simple "e1", constrain univ 1 0 (.LE 8), l1, []⟩] := by subst hS; rfl
  have t0o : T.next l0 "o" = .ok [⟨.simple "e0", constrain univ 0 2 (.LS (-1)), l1, []⟩] := by subst hT; rfl
  have t1p : T.next l1 "p" = .ok [⟨.simple "e1", constrain univ 2 0 (.LE 8), l1, []⟩] := by subst hT; rfl
  refine ⟨l0, l0, eS, eT, fun _ => ⟨fun l v m w => l = m ∧ (l = l0 ∨ l = l1) ∧ Valid 4 w ∧ v 0 = w 0 ∧ v 1 = w 2,
    ⟨?_, ?_, ?_⟩, rfl, .inl rfl, Sys.zeroVal_valid, rfl, rfl⟩⟩
  · rintro l v _ w o l' v' ⟨rfl, hl, hw, h0, h1⟩ ho hact
    rw [oS] at ho
    refine ⟨fun _ => ?_, fun hn => absurd (oT o ho) hn⟩
    simp only [List.mem_cons, List.not_mem_nil, or_false] at ho
    rcases hl with rfl | rfl <;> rcases ho with rfl | rfl
    · obtain ⟨t, ht, hc, rfl, rfl⟩ := act_split s0o hact
      rw [List.mem_singleton] at ht; subst ht
      refine ⟨l1, w, ⟨aT _ (by simp), _, t0o, _, .head _, ⟨?_, hnone _ _ _⟩, rfl, rfl⟩, rfl, .inr rfl, hw, h0, h1⟩
      have hg := hc.1
      rw [den_constrain _ _ _ _ (by decide) (by decide), den_univ] at hg ⊢
      refine ⟨hw, ?_⟩
      have := hg.2
      simp only [Ineq.Sat] at this ⊢
      rw [← h0, ← h1]; exact this
    · obtain ⟨t, ht, _⟩ := act_split s0p hact
      cases ht
    · obtain ⟨t, ht, _⟩ := act_split s1o hact
      cases ht
    · obtain ⟨t, ht, hc, rfl, rfl⟩ := act_split s1p hact
      rw [List.mem_singleton] at ht; subst ht
      refine ⟨l1, w, ⟨aT _ (by simp), _, t1p, _, .head _, ⟨?_, hnone _ _ _⟩, rfl, rfl⟩, rfl, .inr rfl, hw, h0, h1⟩
      have hg := hc.1
      rw [den_constrain _ _ _ _ (by decide) (by decide), den_univ] at hg ⊢
      refine ⟨hw, ?_⟩
      have := hg.2
      simp only [Ineq.Sat] at this ⊢
      rw [← h0, ← h1]; exact this
  · intro l v m w i m' w' _ hi
    rw [iT] at hi; cases hi
  · rintro l v _ w d ⟨rfl, hl, hw, h0, h1⟩ hd
    refine ⟨⟨hd.1, fun _ _ _ => ?_⟩, rfl, hl, delay_valid hw hd.1, ?_, ?_⟩
    · rcases hl with rfl | rfl <;> exact hnone _ _ _
    · simp only [delay]; norm_num; exact h0
    · simp only [delay, dim_fed4]; norm_num; exact h1

end Reveaal
