import Verif.Props.C18
import Verif.Props.C55
import Verif.Lemmas.Reachability

/-! # C19: query verdicts do not depend on hash iteration order -/

namespace Reveaal
open ZoneLib
variable {F : Type} [ZoneLib F]

/-! ## The determinism check -/

/-- The sets of valuations with which a location is entered along some sequence of transitions, starting
with all valuations in the initial location. -/
inductive TS.Branch (ts : TS F) : LocTree F → Set Val → Prop
  | init {s : State F} (h : ts.initialState = .ok (some s)) : Branch ts s.loc {v | Valid (dim F) v}
  | step {l : LocTree F} {Z : Set Val} {a : String} {trans : List (Transition F)} {t : Transition F}
      (h : Branch ts l Z) (ha : ts.hasAction a = true) (hn : ts.next l a = .ok trans) (ht : t ∈ trans)
      (hne : (SuccSet t Z).Nonempty) : Branch ts t.target (SuccSet t Z)

/-- Two transitions of one action can be used from the set `Z`, and some valuation inside the invariant
allows both. -/
def TS.Clash (ts : TS F) (l : LocTree F) (Z : Set Val) : Prop :=
  ∃ a trans, ts.hasAction a = true ∧ ts.next l a = .ok trans ∧ ¬ trans.Pairwise fun t t' =>
    (SuccSet t Z).Nonempty → (SuccSet t' Z).Nonempty → ∀ v ∈ InvSet l, v ∈ den t.allowed → v ∉ den t'.allowed

theorem branch_spec {s : Sys F} (hs : s.Good) {l : LocTree F} {Z : Set Val} (h : s.ts.Branch l Z) :
    s.IsLoc l ∧ ∀ v ∈ Z, Valid (dim F) v := by
  induction h with
  | @init s0 hi =>
    refine ⟨?_, fun v hv => hv⟩
    obtain ⟨ol, h1, hinit⟩ := hs.initial
    have hi : s.initialState = _ := hi
    cases ol with
    | none => unfold Sys.initialState at hi; rw [h1] at hi; cases hi
    | some l =>
      have : s0.loc = l := by
        rcases Sys.initialState_spec (s := s) h1 with ⟨h2, _⟩ | ⟨z, h2, _⟩
        · have h2 : s.initialState = _ := h2
          rw [hi] at h2; cases h2
        · have h2 : s.initialState = _ := h2
          rw [hi] at h2; cases h2; rfl
      rw [this]
      exact hinit l rfl
  | step h ha hn ht hne ih =>
    obtain ⟨h1, h2⟩ := hs.next_ok ih.1 ha hn _ ht
    refine ⟨h1, ?_⟩
    rintro w ⟨v, hv, _, d, hd, rfl, _⟩
    exact delay_valid (h2.run_valid (ih.2 v hv)) hd

/-- A passed determinism check has seen that there is no clash. -/
theorem no_clash {s : Sys F} (hs : s.Good) {ord : Nat → List String} (hord : ∀ k, s.ts.IsActions (ord k))
    {fuel : Nat} (h : checkDeterminism s.ts ord fuel = .ok none) {l : LocTree F} {Z : Set Val}
    (hb : s.ts.Branch l Z) : ¬ s.ts.Clash l Z := by
  unfold checkDeterminism at h
  obtain ⟨o, hi, h⟩ := bind_ok h
  cases o with
  | none =>
    exfalso
    clear h
    induction hb with
    | init hi' => rw [hi] at hi'; cases hi'
    | step _ _ _ _ _ ih => exact ih
  | some s0 =>
  obtain ⟨⟨o, P⟩, hd, h⟩ := bind_ok h
  cases h
  have hl0 : s.IsLoc s0.loc := (branch_spec hs (.init hi)).1
  obtain ⟨⟨_, hproc⟩, q0, hq0, hq0l, hq0z⟩ := detHelper_spec hord fuel _ _ _ hd
  have hloc := detHelper_locs hs fuel _ _ _ _ hd hl0 (by simp) (fun k a ha => by
    have := ((hord k).2 a).1 ha
    simpa [Sys.hasAction, TS.hasAction, Sys.ts] using this)
  have hproc : ∀ p ∈ P, Processed s.ts P p := fun p hp => (hproc p hp).resolve_left (by simp)
  have hcov : ∃ q ∈ P, q.loc = l ∧ Z ⊆ den q.zone := by
    induction hb with
    | init hi' =>
      rw [hi] at hi'; cases hi'
      exact ⟨q0, hq0, (hs.eqv_eq hl0 (hloc q0 hq0) hq0l).symm, fun v hv => hq0z (by rw [den_univ]; exact hv)⟩
    | @step l Z a trans t hb ha hn ht hne ih =>
      obtain ⟨p, hp, rfl, hZ⟩ := ih
      obtain ⟨tr, h1, h2⟩ := hproc p hp a ha
      rw [hn] at h1; cases h1
      obtain ⟨htl, hg⟩ := hs.next_ok (hloc p hp) ha hn t ht
      have hsub : SuccSet t Z ⊆ SuccSet t (den p.zone) := by
        rintro w ⟨v, hv, h⟩; exact ⟨v, hZ hv, h⟩
      have hu := (C05_use_transition t p hg.upd).1.2 (hne.mono hsub)
      obtain ⟨hl, hz⟩ := (C05_use_transition t p hg.upd).2 hu
      obtain ⟨ns, hns, q, hq, hql, hqz⟩ := h2.next t ht hu
      obtain ⟨b, _, hns⟩ := bind_ok hns
      cases hns
      rw [hl] at hql
      refine ⟨q, hq, (hs.eqv_eq htl (hloc q hq) hql).symm, hsub.trans ?_⟩
      rw [← hz]
      exact (extrapolate_sup _ _).trans hqz
  obtain ⟨p, hp, rfl, hZ⟩ := hcov
  rintro ⟨a, trans, ha, hn, hnp⟩
  apply hnp
  obtain ⟨tr, h1, h2⟩ := hproc p hp a ha
  rw [hn] at h1; cases h1
  refine h2.disjoint.imp_of_mem fun {t t'} ht ht' hdis hne hne' v hv hv1 hv2 => ?_
  have usable : ∀ t ∈ trans, (SuccSet t Z).Nonempty → (t.useTransition p).1 = true := by
    intro t ht hne
    refine (C05_use_transition t p (hs.next_ok (hloc p hp) ha hn t ht).2.upd).1.2 (hne.mono ?_)
    rintro w ⟨v, hv, h⟩; exact ⟨v, hZ hv, h⟩
  exact hdis (usable t ht hne) (usable t' ht' hne') v (mem_applyInvariants.2 ⟨hv1, hv⟩)
    (mem_applyInvariants.2 ⟨hv2, hv⟩)

/-- The zone of the state only holds valuations that cannot be told from those of a branch. -/
def NearBranch (s : Sys F) (st : State F) (Z : Set Val) : Prop :=
  s.ts.Branch st.loc Z ∧ ∃ b, s.localBounds st.loc = .ok b ∧ ∀ v ∈ den st.zone, ∃ w ∈ Z, b.Equiv v w

theorem near_succ {s : Sys F} (hs : s.Good) (hb : s.BoundsCover) {st : State F} {Z : Set Val}
    (h : NearBranch s st Z) {a : String} (ha : s.ts.hasAction a = true) {trans : List (Transition F)}
    (hn : s.ts.next st.loc a = .ok trans) {t : Transition F} (ht : t ∈ trans) {b' : Bounds}
    (hb' : s.localBounds t.target = .ok b') :
    ∀ w ∈ SuccSet t (den st.zone), ∃ w' ∈ SuccSet t Z, b'.Equiv w w' := by
  obtain ⟨hbr, b, hbb, hz⟩ := h
  obtain ⟨hl, hval⟩ := branch_spec hs hbr
  obtain ⟨htl, hg⟩ := hs.next_ok hl ha hn t ht
  rintro w ⟨v, hv, hgv, d, hd, rfl, hinv⟩
  obtain ⟨v', hv', he⟩ := hz v hv
  have hvv := den_valid hv
  have hvv' := hval v' hv'
  have he' := (hb.next hl hbb ha hn ht hb').equiv (he.run (us := t.updates)) |>.delay (n := dim F) hd
  refine ⟨_, ⟨v', hv', hb.guard hl hbb ha hn ht _ _ hvv hvv' he hgv, d, hd, rfl, ?_⟩, he'⟩
  exact hb.inv htl hb' _ _ (delay_valid (hg.run_valid hvv) hd) (delay_valid (hg.run_valid hvv') hd) he' hinv

/-- A failed visit has seen a clash. -/
theorem clash_of_fail {s : Sys F} (hs : s.Good) (hb : s.BoundsCover) {ord : Nat → List String}
    (hord : ∀ k, s.ts.IsActions (ord k)) : ∀ (fuel : Nat) (st : State F) (Z : Set Val), NearBranch s st Z →
    ∀ (p : List (State F)) (f : DetFailure F) (r : List (State F)),
      detHelper s.ts ord fuel st p = .ok (some f, r) → ∃ l Z, s.ts.Branch l Z ∧ s.ts.Clash l Z := by
  intro fuel
  induction fuel with
  | zero => intro st Z _ p f r h; cases h
  | succ n ih =>
    intro st Z hst p f r h
    rw [detHelper] at h
    split at h
    · cases h
    have hmem : ∀ a ∈ ord p.length, s.ts.hasAction a = true := fun a ha => by
      simpa [TS.hasAction] using ((hord _).2 a).1 ha
    have hl := (branch_spec hs hst.1).1
    generalize ord p.length = as at h hmem
    generalize p ++ [st] = p' at h
    induction as generalizing p' with
    | nil => simp [detActions] at h
    | cons a as iha =>
      rw [detActions] at h
      obtain ⟨trans, hn, h⟩ := bind_ok h
      obtain ⟨⟨o, p''⟩, ht, h⟩ := bind_ok h
      cases o with
      | none => exact iha (fun b hb' => hmem b (by simp [hb'])) p'' h
      | some x =>
        cases h
        have ha := hmem a (by simp)
        have hg := hs.next_ok hl ha hn
        have succ : ∀ t ∈ trans, ∀ ns, t.useTransition st = (true, ns) →
            (SuccSet t Z).Nonempty ∧ ∀ ns', ns.extrapolate s.ts = .ok ns' → NearBranch s ns' (SuccSet t Z) := by
          intro t ht ns hu
          obtain ⟨b', hb'⟩ := hs.bounds _ (hg t ht).1
          have hnear := near_succ hs hb hst ha hn ht hb'
          have hu1 : (t.useTransition st).1 = true := by rw [hu]
          obtain ⟨w, hw⟩ := (C05_use_transition t st (hg t ht).2.upd).1.1 hu1
          obtain ⟨e1, e2⟩ := (C05_use_transition t st (hg t ht).2.upd).2 hu1
          rw [hu] at e1 e2
          have hne : (SuccSet t Z).Nonempty := let ⟨w', h1, _⟩ := hnear w hw; ⟨w', h1⟩
          refine ⟨hne, fun ns' hns' => ?_⟩
          dsimp only at e1 e2
          obtain ⟨b, hbb, hns'⟩ := bind_ok hns'
          cases hns'
          have hbb : s.localBounds ns.loc = .ok b := hbb
          rw [e1, hb'] at hbb; cases hbb
          refine ⟨by dsimp only; rw [e1]; exact .step hst.1 ha hn ht hne, b', by dsimp only; rw [e1]; exact hb',
            fun v hv => ?_⟩
          obtain ⟨u, hu, he⟩ := extrapolate_equiv _ _ _ hv
          rw [e2] at hu
          obtain ⟨u', hu', he'⟩ := hnear u hu
          exact ⟨u', hu', Refine.equiv_trans he he'⟩
        have key : ∀ (tl pre : List (Transition F)) (fed : F) (p r : List (State F)), pre ++ tl = trans →
            (∀ v ∈ den fed, v ∈ InvSet st.loc ∧ ∃ t ∈ pre, (SuccSet t Z).Nonempty ∧ v ∈ den t.allowed) →
            detTransitions (detHelper s.ts ord n) s.ts st a tl fed p = .ok (some f, r) →
            ∃ l Z, s.ts.Branch l Z ∧ s.ts.Clash l Z := by
          intro tl
          induction tl with
          | nil => intro pre fed p r _ _ h; simp [detTransitions] at h
          | cons t tl iht =>
            intro pre fed p r hsplit hfed h
            have htm : t ∈ trans := by rw [← hsplit]; simp
            have hsplit' : (pre ++ [t]) ++ tl = trans := by rw [← hsplit]; simp
            have hfed' : ∀ v ∈ den fed, v ∈ InvSet st.loc ∧ ∃ t' ∈ pre ++ [t], (SuccSet t' Z).Nonempty ∧
                v ∈ den t'.allowed := fun v hv =>
              let ⟨h1, t', ht', h2⟩ := hfed v hv
              ⟨h1, t', by simp [ht'], h2⟩
            rw [detTransitions] at h
            cases hu : t.useTransition st with
            | mk b ns =>
              rw [hu] at h
              cases b with
              | false => exact iht _ fed p r hsplit' hfed' h
              | true =>
                obtain ⟨hne, hnext⟩ := succ t htm ns hu
                dsimp only at h
                split at h
                · rename_i hi
                  obtain ⟨v, hv1, hv2⟩ := (hasIntersection_iff _ _).1 hi
                  obtain ⟨hinv, t', ht', hne', hal'⟩ := hfed v hv2
                  refine ⟨st.loc, Z, hst.1, a, trans, ha, hn, fun hp => ?_⟩
                  rw [← hsplit, List.pairwise_append] at hp
                  exact hp.2.2 t' ht' t (by simp) hne' hne v hinv hal' (mem_applyInvariants.1 hv1).1
                · obtain ⟨ns', hns, h⟩ := bind_ok h
                  obtain ⟨⟨o, p1⟩, hvis, h⟩ := bind_ok h
                  cases o with
                  | some y => cases h; exact ih ns' _ (hnext ns' hns) _ _ _ hvis
                  | none =>
                    refine iht _ _ p1 r hsplit' (fun v hv => ?_) h
                    rw [den_append] at hv
                    rcases hv with hv | hv
                    · exact hfed' v hv
                    · obtain ⟨h1, h2⟩ := mem_applyInvariants.1 hv
                      exact ⟨h2, t, by simp, hne, h1⟩
        exact key trans [] empty _ _ rfl (by rw [den_empty]; simp) ht

/-- The determinism check fails exactly if there is a clash, whatever the order of the actions. -/
theorem determinism_exact {s : Sys F} (hs : s.Good) (hb : s.BoundsCover) {ord : Nat → List String}
    (hord : ∀ k, s.ts.IsActions (ord k)) {fuel : Nat} {o : Option (DetFailure F)}
    (h : checkDeterminism s.ts ord fuel = .ok o) :
    o.isSome = true ↔ ∃ l Z, s.ts.Branch l Z ∧ s.ts.Clash l Z := by
  cases o with
  | none =>
    simp only [Option.isSome_none, Bool.false_eq_true, false_iff]
    rintro ⟨l, Z, hbr, hc⟩
    exact no_clash hs hord h hbr hc
  | some f =>
    simp only [Option.isSome_some, true_iff]
    unfold checkDeterminism at h
    obtain ⟨o, hi, h⟩ := bind_ok h
    cases o with
    | none => cases h
    | some s0 =>
      obtain ⟨⟨o, P⟩, hd, h⟩ := bind_ok h
      cases h
      have hbr := TS.Branch.init hi
      obtain ⟨b, hbb⟩ := hs.bounds _ (branch_spec hs hbr).1
      exact clash_of_fail hs hb hord fuel ⟨s0.loc, univ⟩ _ ⟨hbr, b, hbb, fun v hv => ⟨v, den_valid hv, .refl b v⟩⟩ _ _ _ hd

/-- All components of the system compare clocks with literals only. -/
def Sys.PlainLeaves : Sys F → Prop
  | .comp x => (Sys.comp x).OfPlain
  | .composition l r _ _ _ _ _ => l.PlainLeaves ∧ r.PlainLeaves
  | .conjunction l r _ _ => l.PlainLeaves ∧ r.PlainLeaves
  | .quotient t s _ _ _ _ => t.PlainLeaves ∧ s.PlainLeaves

/-- The determinism check gives the same verdict for all iteration orders of the hash sets of actions (and
for all bounds on the recursion that are high enough to get a verdict).

Missing from the full property: components that compare clocks with anything but literals, or with edges
or invariants at their special locations. -/
theorem C19_determinism_partial (s : Sys F) (hs : s.PlainLeaves) (ord ord' : List Bool → Orders)
    (h1 : s.ActOrders ord) (h2 : s.ActOrders ord') (fuel fuel' : Nat) (o o' : Option (DetFailure F))
    (h : s.checkDet ord fuel = .ok o) (h' : s.checkDet ord' fuel' = .ok o') : o.isSome = o'.isSome := by
  induction s generalizing ord ord' o o' with
  | comp x =>
    have hs : (Sys.comp x).OfPlain := hs
    rw [Sys.checkDet] at h h'
    exact Bool.eq_iff_iff.2 ((determinism_exact hs.accepted.good hs.covers h1 h).trans
      (determinism_exact hs.accepted.good hs.covers h2 h').symm)
  | composition l r _ _ _ _ _ ihl ihr =>
    rw [Sys.checkDet] at h h'
    obtain ⟨a, ha, h⟩ := bind_ok h
    obtain ⟨b, hb, h'⟩ := bind_ok h'
    have hab := ihl hs.1 _ _ h1.1 h2.1 a b ha hb
    cases a <;> cases b <;> simp only [Option.isSome_none, Option.isSome_some, reduceCtorEq] at hab
    · exact ihr hs.2 _ _ h1.2 h2.2 o o' h h'
    · cases h; cases h'; rfl
  | conjunction l r _ _ ihl ihr =>
    rw [Sys.checkDet] at h h'
    obtain ⟨a, ha, h⟩ := bind_ok h
    obtain ⟨b, hb, h'⟩ := bind_ok h'
    have hab := ihl hs.1 _ _ h1.1 h2.1 a b ha hb
    cases a <;> cases b <;> simp only [Option.isSome_none, Option.isSome_some, reduceCtorEq] at hab
    · exact ihr hs.2 _ _ h1.2 h2.2 o o' h h'
    · cases h; cases h'; rfl
  | quotient l r _ _ _ _ ihl ihr =>
    rw [Sys.checkDet] at h h'
    obtain ⟨a, ha, h⟩ := bind_ok h
    obtain ⟨b, hb, h'⟩ := bind_ok h'
    have hab := ihl hs.1 _ _ h1.1 h2.1 a b ha hb
    cases a <;> cases b <;> simp only [Option.isSome_none, Option.isSome_some, reduceCtorEq] at hab
    · exact ihr hs.2 _ _ h1.2 h2.2 o o' h h'
    · cases h; cases h'; rfl

/-! ## The search for a path -/

theorem nodup_mkSet (l : List String) : (mkSet l).Nodup := by
  unfold mkSet
  have : ∀ (l acc : List String), acc.Nodup →
      (l.foldl (fun acc a => if a ∈ acc then acc else acc ++ [a]) acc).Nodup := by
    intro l
    induction l with
    | nil => exact fun _ h => h
    | cons a l ih =>
      intro acc h
      refine ih _ ?_
      dsimp only
      split
      · exact h
      · rename_i hn
        rw [List.nodup_append]
        exact ⟨h, by simp, fun x hx y hy e => by simp at hy; subst hy; subst e; exact hn hx⟩
  exact this l [] .nil

/-- The search sorts the actions it gets from the hash set, so the path found is the same for all iteration
orders. -/
theorem C19_reachability (zoneBounds : F → Bounds) (ts : TS F) (ord : List String) (h : ts.IsActions ord)
    (start goal : State F) (fuel : Nat) :
    findPathIn zoneBounds ts ord start goal fuel = findPath zoneBounds ts start goal fuel := by
  have : ord.insertionSort (· ≤ ·) = ts.sortedActions := by
    unfold TS.sortedActions
    refine List.Perm.eq_of_pairwise (le := (· ≤ ·)) (fun a b _ _ => String.le_antisymm) ?_ ?_ ?_
    · exact List.pairwise_insertionSort (· ≤ ·) _
    · exact List.pairwise_insertionSort (· ≤ ·) _
    · refine (List.perm_insertionSort _ _).trans (.trans ?_ (List.perm_insertionSort _ _).symm)
      refine (List.perm_ext_iff_of_nodup h.1 (nodup_mkSet _)).2 fun a => ?_
      rw [mem_mkSet, h.2, List.mem_append]
  unfold findPathIn findPath reachabilitySearch
  rw [this]

/-! ## The refinement check -/

theorem Sys.OfPlain.leaves {s : Sys F} (h : s.OfPlain) : s.PlainLeaves := by
  induction h with
  | comp hc hp ho h => exact .comp hc hp ho h
  | composition _ _ h ihl ihr => obtain ⟨_, rfl⟩ := newComposition_eq h; exact ⟨ihl, ihr⟩
  | conjunction _ _ h ihl ihr => obtain ⟨_, _, rfl⟩ := newConjunction_eq h; exact ⟨ihl, ihr⟩
  | quotient _ _ _ _ h iht ihs => obtain ⟨_, rfl⟩ := newQuotient_eq h; exact ⟨iht, ihs⟩

omit [ZoneLib F] in
theorem check_not_precheck {r : PairResult} {a : String} {p : StatePair F} {side : Bool} {g : ConsFailure F} :
    r.check a p ≠ some (.precheck side g) := by
  unfold PairResult.check; cases r <;> simp

theorem Refine.outputLoop_not_precheck {ts1 ts2 : TS F} {cur : StatePair F} {side : Bool} {g : ConsFailure F} :
    ∀ {as : List String} {c c' : RefCtx F}, outputLoop ts1 ts2 cur as c ≠ .ok (some (.precheck side g), c')
  | [], c, c', h => by cases h
  | a :: as, c, c', h => by
    rw [outputLoop] at h
    obtain ⟨o1, _, h⟩ := bind_ok h
    obtain ⟨o2, _, h⟩ := bind_ok h
    obtain ⟨⟨r, c1⟩, _, h⟩ := bind_ok h
    dsimp only at h
    split at h
    · rename_i f hf
      cases h; exact check_not_precheck hf
    · exact outputLoop_not_precheck h

theorem Refine.inputLoop_not_precheck {ts1 ts2 : TS F} {cur : StatePair F} {side : Bool} {g : ConsFailure F} :
    ∀ {as : List String} {c c' : RefCtx F}, inputLoop ts1 ts2 cur as c ≠ .ok (some (.precheck side g), c')
  | [], c, c', h => by cases h
  | a :: as, c, c', h => by
    rw [inputLoop] at h
    obtain ⟨o1, _, h⟩ := bind_ok h
    obtain ⟨o2, _, h⟩ := bind_ok h
    obtain ⟨⟨r, c1⟩, _, h⟩ := bind_ok h
    dsimp only at h
    split at h
    · rename_i f hf
      cases h; exact check_not_precheck hf
    · exact inputLoop_not_precheck h

theorem Refine.mainLoop_not_precheck {ts1 ts2 : TS F} {ordO ordI : List String} {side : Bool}
    {g : ConsFailure F} : ∀ {fuel : Nat} {c c' : RefCtx F},
    mainLoop ts1 ts2 ordO ordI fuel c ≠ .ok (some (.precheck side g), c')
  | 0, c, c', h => by cases h
  | fuel + 1, c, c', h => by
    rw [mainLoop] at h
    split at h
    · cases h
    obtain ⟨⟨p, w⟩, _, h⟩ := bind_ok h
    obtain ⟨cur, _, h⟩ := bind_ok h
    obtain ⟨⟨r, c1⟩, h1, h⟩ := bind_ok h
    cases r with
    | some f => cases h; exact outputLoop_not_precheck h1
    | none =>
    obtain ⟨⟨r, c2⟩, h2, h⟩ := bind_ok h
    cases r with
    | some f => cases h; exact inputLoop_not_precheck h2
    | none => exact mainLoop_not_precheck h

theorem Refine.explore_not_precheck {ts1 ts2 : TS F} {ordO ordI : List String} {side : Bool}
    {g : ConsFailure F} {fuel : Nat} : explore ts1 ts2 ordO ordI fuel ≠ .ok (some (.precheck side g)) := by
  intro h
  unfold explore at h
  obtain ⟨o1, _, h⟩ := bind_ok h
  cases o1 with
  | none =>
    obtain ⟨o2, _, h⟩ := bind_ok h
    cases o2 <;> cases h
  | some l =>
    obtain ⟨o2, _, h⟩ := bind_ok h
    cases o2 with
    | none => cases h
    | some m =>
      dsimp only at h
      split at h
      · cases h
      obtain ⟨p, _, h⟩ := bind_ok h
      obtain ⟨⟨r, c⟩, h1, h⟩ := bind_ok h
      cases h
      exact mainLoop_not_precheck h1

/-- What a run of the refinement check that never met a failed consistency check has looked at. -/
theorem refinement_cases {s t : Sys F} {ord1 ord2 : List Bool → Orders} {ordO ordI : List String} {fuel : Nat}
    {o : Option (RefFailure F)} (c1 : ∀ f, s.checkCons ord1 fuel ≠ .ok (some f))
    (c2 : ∀ f, t.checkCons ord2 fuel ≠ .ok (some f)) (h : checkRefinement s t ord1 ord2 ordO ordI fuel = .ok o) :
    (∃ f, s.checkDet ord1 fuel = .ok (some f) ∧ o.isSome = true) ∨
    s.checkDet ord1 fuel = .ok none ∧ ((∃ f, t.checkDet ord2 fuel = .ok (some f) ∧ o.isSome = true) ∨
      t.checkDet ord2 fuel = .ok none ∧ ∀ side g, o ≠ some (.precheck side g)) := by
  unfold checkRefinement at h
  obtain ⟨p1, hp1, h⟩ := bind_ok h
  have hp1' := hp1
  unfold Sys.precheck at hp1'
  obtain ⟨d1, hd1, hp1'⟩ := bind_ok hp1'
  cases d1 with
  | some f => cases hp1'; cases h; exact .inl ⟨f, hd1, rfl⟩
  | none =>
  cases p1 with
  | some f => exact absurd hp1' (c1 f)
  | none =>
  refine .inr ⟨hd1, ?_⟩
  obtain ⟨p2, hp2, h⟩ := bind_ok h
  have hp2' := hp2
  unfold Sys.precheck at hp2'
  obtain ⟨d2, hd2, hp2'⟩ := bind_ok hp2'
  cases d2 with
  | some f => cases hp2'; cases h; exact .inl ⟨f, hd2, rfl⟩
  | none =>
  cases p2 with
  | some f => exact absurd hp2' (c2 f)
  | none =>
  refine .inr ⟨hd2, fun side g e => ?_⟩
  subst e
  dsimp only at h
  split at h
  · rename_i f hf
    cases h
    unfold Refine.checkAlphabets at hf
    repeat' split at hf
    all_goals cases hf
  · exact Refine.explore_not_precheck h

/-- As long as no consistency check fails, the refinement check gives the same verdict for all iteration
orders of the hash sets.

Missing from the full property: see `Sys.Ordinary` for the systems covered.  Without the restrictions on the
systems it is false (`C19_violated_refinement`), and so it is for the consistency check
(`C19_violated_consistency`). -/
theorem C19_refinement_partial (s t : Sys F) (hs : s.Ordinary) (ht : t.Ordinary) (hdis : s.DisjointClocks t)
    (hinit : ∀ l m, s.ts.initialLoc = .ok (some l) → t.ts.initialLoc = .ok (some m) →
      ∀ d, TS.CanDelay l zeroVal d → TS.CanDelay m zeroVal d)
    (ord1 ord2 ord1' ord2' : List Bool → Orders) (h1 : s.ActOrders ord1) (h2 : t.ActOrders ord2)
    (h1' : s.ActOrders ord1') (h2' : t.ActOrders ord2') (ordO ordI ordO' ordI' : List String)
    (hordO : ∀ a, a ∈ ordO ↔ a ∈ s.ts.outputs) (hordI : ∀ a, a ∈ ordI ↔ a ∈ t.ts.inputs)
    (hordO' : ∀ a, a ∈ ordO' ↔ a ∈ s.ts.outputs) (hordI' : ∀ a, a ∈ ordI' ↔ a ∈ t.ts.inputs)
    (fuel fuel' : Nat)
    (c1 : ∀ f, s.checkCons ord1 fuel ≠ .ok (some f)) (c2 : ∀ f, t.checkCons ord2 fuel ≠ .ok (some f))
    (c1' : ∀ f, s.checkCons ord1' fuel' ≠ .ok (some f)) (c2' : ∀ f, t.checkCons ord2' fuel' ≠ .ok (some f))
    (o o' : Option (RefFailure F)) (h : checkRefinement s t ord1 ord2 ordO ordI fuel = .ok o)
    (h' : checkRefinement s t ord1' ord2' ordO' ordI' fuel' = .ok o') : o = none ↔ o' = none := by
  have ne : ∀ {x : Option (RefFailure F)}, x.isSome = true → x ≠ none := by rintro _ h rfl; cases h
  have det := C19_determinism_partial s hs.plain.leaves ord1 ord1' h1 h1' fuel fuel'
  have det' := C19_determinism_partial t ht.plain.leaves ord2 ord2' h2 h2' fuel fuel'
  rcases refinement_cases c1 c2 h with ⟨f, e, n⟩ | ⟨e, ⟨f, e2, n⟩ | ⟨e2, n⟩⟩ <;>
    rcases refinement_cases c1' c2' h' with ⟨f', e', n'⟩ | ⟨e', ⟨f', e2', n'⟩ | ⟨e2', n'⟩⟩
  · exact iff_of_false (ne n) (ne n')
  · cases det _ _ e e'
  · cases det _ _ e e'
  · cases det _ _ e e'
  · exact iff_of_false (ne n) (ne n')
  · cases det' _ _ e2 e2'
  · cases det _ _ e e'
  · cases det' _ _ e2 e2'
  · exact (C55_exact_partial s t hs ht hdis hinit ord1 ord2 h1 h2 ordO ordI hordO hordI fuel o n h).trans
      (C55_exact_partial s t hs ht hdis hinit ord1' ord2' h1' h2' ordO' ordI' hordO' hordI' fuel' o' n' h').symm

/-! ## Where the order decides -/

/-- The orders are orders of the sets of actions of the components. -/
def Sys.FairOrders : Sys F → (List Bool → Orders) → Prop
  | .comp c, ord => ∀ k, (Sys.comp c).ts.IsActions ((ord []).acts k) ∧
      ((ord []).inputs k).Perm (Sys.comp c).ts.inputs ∧ ((ord []).outputs k).Perm (Sys.comp c).ts.outputs
  | .composition l r _ _ _ _ _, ord => l.FairOrders (fun p => ord (false :: p)) ∧
      r.FairOrders (fun p => ord (true :: p))
  | .conjunction l r _ _, ord => l.FairOrders (fun p => ord (false :: p)) ∧
      r.FairOrders (fun p => ord (true :: p))
  | .quotient t s _ _ _ _, ord => t.FairOrders (fun p => ord (false :: p)) ∧
      s.FairOrders (fun p => ord (true :: p))

theorem exOrdersO_fair {c : Component} {h : (CompComp.compile (F := Fed4) id c 0).toBool = true}
    {ins outs : List String}
    (hi : ins.Perm (exComp c h).ts.inputs) (ho : outs.Perm (exComp c h).ts.outputs)
    (hd : (ins ++ outs).Nodup) : (exComp c h).FairOrders (exOrdersO ins outs) := fun _ =>
  ⟨⟨hd, fun _ => (hi.append ho).mem_iff.trans List.mem_append⟩, hi, ho⟩

/-- `a` leads to a place that is only good if one gets there early; `b` leads there later. -/
def exLoc : Component := ⟨"S", ⟨[], [("x", 1)]⟩,
  [⟨"L0", none, .initial, "NORMAL"⟩, ⟨"A", some (.le (.var "x") (.int 10)), .normal, "NORMAL"⟩,
   ⟨"B", none, .normal, "NORMAL"⟩],
  [⟨"e0", "L0", "A", .input, none, some [⟨"x", .int 0⟩], "a"⟩,
   ⟨"e1", "L0", "A", .input, some (.and (.ge (.var "x") (.int 4)) (.le (.var "x") (.int 10))), none, "b"⟩,
   ⟨"e2", "L0", "L0", .input, some (.lt (.var "x") (.int 4)), none, "b"⟩,
   ⟨"e2b", "L0", "L0", .input, some (.gt (.var "x") (.int 10)), none, "b"⟩,
   ⟨"e3", "A", "B", .output, some (.le (.var "x") (.int 2)), none, "o"⟩,
   ⟨"e4", "A", "A", .input, some (.le (.var "x") (.int 10)), none, "a"⟩,
   ⟨"e5", "A", "A", .input, some (.le (.var "x") (.int 10)), none, "b"⟩,
   ⟨"e6", "B", "B", .input, none, none, "a"⟩, ⟨"e7", "B", "B", .input, none, none, "b"⟩]⟩

/-- The full property is false: whether a component passes the consistency check can depend on which of two
inputs the hash set gives first.  (If `a` comes first, the location `A` is visited with a zone that includes
the one `b` leads to, is found consistent because the answer is possible from some of the zone, and is not
looked at again.) -/
theorem C19_violated_consistency :
    ∃ (s : Sys Fed4) (ord ord' : List Bool → Orders), s.Ordinary ∧ s.FairOrders ord ∧ s.FairOrders ord' ∧
      s.precheck ord 20 = .ok none ∧ ∃ f, s.precheck ord' 20 = .ok (some f) := by
  refine ⟨exComp exLoc (by decide +kernel), exOrdersO ["a", "b"] ["o"], exOrdersO ["b", "a"] ["o"], ?_,
    exOrdersO_fair (by decide +kernel) (by decide +kernel) (by decide),
    exOrdersO_fair (by decide +kernel) (by decide +kernel) (by decide),
    passes_eq (by decide +kernel), rejects_eq (by decide +kernel)⟩
  exact .comp (Component.ok_of_okB (by decide)) (Component.plain_of_plainB (by decide)) (fun _ => .refl _)
    (getOk_eq _) (by decide +kernel) (CompComp.past_of_pastB (by decide +kernel))
    (CompComp.open_of_openB (exComp_accepted (by decide)).good (by decide +kernel))

def exHasty : Component := ⟨"S", ⟨[], [("x", 1), ("z", 3)]⟩,
  [⟨"L0", none, .initial, "NORMAL"⟩, ⟨"M", none, .normal, "NORMAL"⟩,
   ⟨"A", some (.le (.var "x") (.int 0)), .normal, "NORMAL"⟩,
   ⟨"D", some (.le (.var "x") (.int 0)), .normal, "NORMAL"⟩, ⟨"E", none, .normal, "NORMAL"⟩],
  [⟨"e0", "L0", "M", .output, none, none, "a"⟩,
   ⟨"e1", "L0", "A", .output, some (.le (.var "z") (.int 3)), some [⟨"x", .int 0⟩], "b"⟩,
   ⟨"e2", "L0", "A", .output, some (.gt (.var "z") (.int 3)), some [⟨"x", .int 0⟩], "c"⟩,
   ⟨"e3", "M", "A", .output, none, some [⟨"x", .int 0⟩], "d"⟩,
   ⟨"e4", "A", "D", .output, none, none, "o"⟩,
   ⟨"e5", "D", "E", .output, none, none, "p"⟩]⟩

def exSplit : Component := ⟨"T", ⟨[], [("y", 2)]⟩,
  [⟨"M0", none, .initial, "NORMAL"⟩, ⟨"N", none, .normal, "NORMAL"⟩, ⟨"B", none, .normal, "NORMAL"⟩,
   ⟨"M1", some (.le (.var "y") (.int 3)), .normal, "NORMAL"⟩,
   ⟨"M2", none, .normal, "NORMAL"⟩, ⟨"E", none, .normal, "NORMAL"⟩],
  [⟨"f0", "M0", "N", .output, none, none, "a"⟩,
   ⟨"f1", "M0", "B", .output, some (.le (.var "y") (.int 3)), none, "b"⟩,
   ⟨"f2", "M0", "B", .output, some (.gt (.var "y") (.int 3)), none, "c"⟩,
   ⟨"f3", "N", "B", .output, none, none, "d"⟩,
   ⟨"f4", "B", "M1", .output, none, none, "o"⟩,
   ⟨"f5", "B", "M2", .output, some (.gt (.var "y") (.int 3)), none, "o"⟩,
   ⟨"f6", "M1", "E", .output, none, none, "p"⟩,
   ⟨"f7", "M2", "E", .output, none, none, "p"⟩]⟩

/-- The full property is false for refinement also: with the same orders in all other places, the order in
which the search takes the outputs of the left side decides between "yes" and "no", and none of the checks
of a single side fails.  (The pair of locations `A` and `B` is looked at once with a large zone if `a` and
`d` come first, and in two pieces if `b` and `c` come first; only in pieces is it noticed that `f4` leads to
a location which cannot be entered.) -/
theorem C19_violated_refinement :
    ∃ (s t : Sys Fed4) (ord ord' : List Bool → Orders) (ordO ordO' : List String), s.OfPlain ∧ t.OfPlain ∧
      s.DisjointClocks t ∧ s.FairOrders ord ∧ t.FairOrders ord' ∧ ordO.Perm s.ts.outputs ∧
      ordO'.Perm s.ts.outputs ∧ t.ts.inputs = [] ∧
      s.precheck ord 50 = .ok none ∧ t.precheck ord' 50 = .ok none ∧
      checkRefinement s t ord ord' ordO [] 50 = .ok none ∧
      ∃ f, checkRefinement s t ord ord' ordO' [] 50 = .ok (some f) := by
  refine ⟨exComp exHasty (by decide +kernel), exComp exSplit (by decide +kernel),
    exOrdersO [] ["a", "b", "c", "d", "o", "p"], exOrdersO [] ["a", "b", "c", "d", "o", "p"],
    ["a", "b", "c", "d", "o", "p"], ["b", "c", "a", "d", "o", "p"], ?_, ?_,
    by unfold Sys.DisjointClocks; decide +kernel,
    exOrdersO_fair (by decide +kernel) (by decide +kernel) (by decide),
    exOrdersO_fair (by decide +kernel) (by decide +kernel) (by decide),
    by decide +kernel, by decide +kernel, by decide +kernel, passes_eq (by decide +kernel),
    passes_eq (by decide +kernel), passes_eq (by decide +kernel), rejects_eq (by decide +kernel)⟩
  · exact .comp (Component.ok_of_okB (by decide)) (Component.plain_of_plainB (by decide)) (fun _ => .refl _)
      (getOk_eq _)
  · exact .comp (Component.ok_of_okB (by decide)) (Component.plain_of_plainB (by decide)) (fun _ => .refl _)
      (getOk_eq _)

/-! ## Concrete cases -/

/-- Any two verdicts of the determinism check of `A` agree. -/
example (ord ord' : List Bool → Orders) (h1 : sysA.ActOrders ord) (h2 : sysA.ActOrders ord') (n n' : Nat)
    (o o' : Option (DetFailure Fed4)) (h : sysA.checkDet ord n = .ok o) (h' : sysA.checkDet ord' n' = .ok o') :
    o.isSome = o'.isSome :=
  C19_determinism_partial sysA sysA_ofPlain.leaves ord ord' h1 h2 n n' o o' h h'

/-- ... and it has one. -/
example : sysA.checkDet exOrders 10 = .ok none := passes_eq (by decide +kernel)

/-- "`A` does not refine `C`" is found with every order. -/
example (n : Nat) (o : Option (RefFailure Fed4))
    (c1 : ∀ f, sysA.checkCons exOrders n ≠ .ok (some f)) (c2 : ∀ f, sysC.checkCons exOrders n ≠ .ok (some f))
    (h : checkRefinement sysA sysC exOrders exOrders ["out", "out"] ["go"] n = .ok o) : o ≠ none := by
  have hA : sysA.ActOrders exOrders := fun k => ⟨by simp [exOrders], fun a => by
    have h1 : sysA.ts.inputs = ["go"] := by decide +kernel
    have h2 : sysA.ts.outputs = ["out"] := by decide +kernel
    change _ ↔ a ∈ sysA.ts.inputs ∨ a ∈ sysA.ts.outputs
    rw [h1, h2]; simp [exOrders]⟩
  have hC : sysC.ActOrders exOrders := fun k => ⟨by simp [exOrders], fun a => by
    have h1 : sysC.ts.inputs = ["go"] := by decide +kernel
    have h2 : sysC.ts.outputs = ["out"] := by decide +kernel
    change _ ↔ a ∈ sysC.ts.inputs ∨ a ∈ sysC.ts.outputs
    rw [h1, h2]; simp [exOrders]⟩
  have cA : sysA.checkCons exOrders 20 = .ok none := passes_eq (by decide +kernel)
  have cC : sysC.checkCons exOrders 20 = .ok none := passes_eq (by decide +kernel)
  obtain ⟨f, -, h'⟩ := refuted_eq (r := checkRefinement sysA sysC exOrders exOrders ["out"] ["go"] 20)
    (by decide +kernel)
  have hout : sysA.ts.outputs = ["out"] := by decide +kernel
  have hin : sysC.ts.inputs = ["go"] := by decide +kernel
  have := C19_refinement_partial sysA sysC sysA_ordinary sysC_ordinary
    (by unfold Sys.DisjointClocks; decide +kernel) ?_ exOrders exOrders exOrders exOrders hA hC hA hC
    ["out", "out"] ["go"] ["out"] ["go"] (by simp [hout]) (by simp [hin]) (by simp [hout]) (by simp [hin]) n 20
    c1 c2 (fun f e => by rw [cA] at e; cases e) (fun f e => by rw [cC] at e; cases e) _ _ h h'
  · intro e; cases this.1 e
  · intro l m hl hm d hd
    have e1 : sysA.ts.initialLoc = .ok (some (.leaf (.simple "L0") none .initial)) := rfl
    have e2 : sysC.ts.initialLoc = .ok (some (.leaf (.simple "N0") none .initial)) := rfl
    rw [e1] at hl; rw [e2] at hm
    cases hl; cases hm
    exact hd

end Reveaal
