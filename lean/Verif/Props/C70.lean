import Verif.Props.C14
import Verif.Props.C37
import Verif.Props.C55

/-! # C70: a reachable verdict is right -/

namespace Reveaal
open ZoneLib
variable {F : Type} [ZoneLib F]

theorem Bounds.Equiv.trans {b : Bounds} {u v w : Val} (h1 : b.Equiv u v) (h2 : b.Equiv v w) : b.Equiv u w := by
  intro i
  rcases h1 i with h1 | h1
  · rw [h1]; exact h2 i
  · rcases h2 i with h2 | h2
    · rw [← h2]; exact .inr h1
    · exact .inr fun m hm => ⟨(h1 m hm).1, (h2 m hm).2⟩

/-- A run along transitions, followed by one more transition and a delay. -/
theorem TS.RunVia.snoc {ts : TS F} {l l' : LocTree F} {v w : Val} {path : List (Transition F × String)}
    (h : ts.RunVia l v path l' w) {t : Transition F} {a : String} {trans : List (Transition F)} {d : ℝ}
    (ha : ts.hasAction a = true) (hn : ts.next l' a = .ok trans) (ht : t ∈ trans) (hc : CanTake t w)
    (hd : TS.CanDelay t.target (runUpdates t.updates w) d) :
    ts.RunVia l v (path ++ [(t, a)]) t.target (delay (dim F) (runUpdates t.updates w) d) := by
  induction h with
  | done he => exact .step he ha hn ht hc (.done hd)
  | step he ha' hn' ht' hc' _ ih => exact .step he ha' hn' ht' hc' (ih hn hc hd)

/-! ## What holds of every sub-path the search makes -/

theorem takeTransition_all {ts : TS F} {extra : Bounds} {sp : SubPath F} {a : String} {t : Transition F}
    {P : SubPath F → Prop} (hP : ∀ ns, t.useTransition sp.dest = (true, ns) → ∀ ns', ns.extrapolateWith ts extra = .ok ns' →
      P ⟨(t, a) :: sp.taken, ns'⟩) {st st' : Search F} (hst : ∀ x ∈ st.frontier, P x)
    (h : takeTransition ts extra sp a t st = .ok st') : ∀ x ∈ st'.frontier, P x := by
  unfold takeTransition at h
  cases hus : t.useTransition sp.dest with
  | mk b ns =>
    rw [hus] at h
    cases b with
    | false => cases h; exact hst
    | true =>
      dsimp only at h
      obtain ⟨ns', hns, h⟩ := bind_ok h
      split at h
      · cases h
        intro x hx
        rcases List.mem_append.1 hx with hx | hx
        · exact hst x hx
        · rw [List.mem_singleton] at hx; subst hx
          exact hP ns hus ns' hns
      · cases h; exact hst

theorem takeTransitions_all {ts : TS F} {extra : Bounds} {sp : SubPath F} {a : String}
    {P : SubPath F → Prop} : ∀ {tl : List (Transition F)}, (∀ t ∈ tl, ∀ ns, t.useTransition sp.dest = (true, ns) →
      ∀ ns', ns.extrapolateWith ts extra = .ok ns' → P ⟨(t, a) :: sp.taken, ns'⟩) →
    ∀ {st st' : Search F}, (∀ x ∈ st.frontier, P x) → takeTransitions ts extra sp a tl st = .ok st' →
      ∀ x ∈ st'.frontier, P x := by
  intro tl
  induction tl with
  | nil => intro _ st st' hst h; cases h; exact hst
  | cons t tl ih =>
    intro hP st st' hst h
    rw [takeTransitions] at h
    obtain ⟨st1, h1, h⟩ := bind_ok h
    exact ih (fun t ht => hP t (by simp [ht])) (takeTransition_all (hP t (by simp)) hst h1) h

theorem takeActions_all {ts : TS F} {extra : Bounds} {sp : SubPath F} {P : SubPath F → Prop} :
    ∀ {as : List String}, (∀ a ∈ as, ∀ trans, ts.next sp.dest.loc a = .ok trans → ∀ t ∈ trans,
      ∀ ns, t.useTransition sp.dest = (true, ns) →
      ∀ ns', ns.extrapolateWith ts extra = .ok ns' → P ⟨(t, a) :: sp.taken, ns'⟩) →
    ∀ {st st' : Search F}, (∀ x ∈ st.frontier, P x) → takeActions ts extra sp as st = .ok st' →
      ∀ x ∈ st'.frontier, P x := by
  intro as
  induction as with
  | nil => intro _ st st' hst h; cases h; exact hst
  | cons a as ih =>
    intro hP st st' hst h
    rw [takeActions] at h
    obtain ⟨trans, hn, h⟩ := bind_ok h
    obtain ⟨st1, h1, h⟩ := bind_ok h
    exact ih (fun a ha => hP a (by simp [ha])) (takeTransitions_all (hP a (by simp) trans hn) hst h1) h

/-- What holds of the start and is kept by every step of the search holds of the sub-path that is reported. -/
theorem searchLoop_all {ts : TS F} {extra : Bounds} {actions : List String} {start goal : State F}
    {P : SubPath F → Prop} (hP : ∀ sp, P sp → ∀ a ∈ actions, ∀ trans, ts.next sp.dest.loc a = .ok trans →
      ∀ t ∈ trans, ∀ ns, t.useTransition sp.dest = (true, ns) →
      ∀ ns', ns.extrapolateWith ts extra = .ok ns' → P ⟨(t, a) :: sp.taken, ns'⟩) : ∀ (fuel : Nat) (st : Search F)
    (ds : List (Decision F)), (∀ x ∈ st.frontier, P x) →
    searchLoop ts extra actions start goal fuel st = .ok (some ds) →
    ∃ sp, P sp ∧ reachedEnd sp.dest goal = .ok true ∧ makePath sp start = .ok ds := by
  intro fuel
  induction fuel with
  | zero => intro st ds _ h; cases h
  | succ n ih =>
    intro st ds hst h
    obtain ⟨frontier, visited⟩ := st
    rw [searchLoop] at h
    cases frontier with
    | nil => cases h
    | cons sp rest =>
      dsimp only at h
      obtain ⟨b, hb, h⟩ := bind_ok h
      cases b with
      | true =>
        simp only [if_true] at h
        obtain ⟨p, hp, h⟩ := bind_ok h
        cases h
        exact ⟨sp, hst sp (by simp), hb, hp⟩
      | false =>
        simp only [Bool.false_eq_true, if_false] at h
        obtain ⟨st1, h1, h⟩ := bind_ok h
        exact ih st1 ds (takeActions_all (hP sp (hst sp (by simp))) (fun x hx => hst x (by
          simp only [List.mem_cons]; exact .inr hx)) h1) h

/-- Every valuation of the sub-path's destination is one that the bounds do not distinguish from a valuation that a
run along the same transitions really gets to. -/
structure RealPath (s : Sys F) (extra : Bounds) (start : State F) (sp : SubPath F) : Prop where
  loc : s.IsLoc sp.dest.loc
  follows : s.ts.Follows start.loc sp.taken.reverse sp.dest.loc
  real : ∀ b, s.ts.localBounds sp.dest.loc = .ok b → ∀ v ∈ den sp.dest.zone, ∃ v₀ ∈ den start.zone, ∃ w,
    Valid (dim F) w ∧ (b.add extra).Equiv v w ∧ s.ts.RunVia start.loc v₀ sp.taken.reverse sp.dest.loc w

theorem RealPath.step {s : Sys F} (hs : s.Good) (hc : s.BoundsCover) (hpast : ∀ l, s.IsLoc l → PastClosed l)
    {extra : Bounds} {start : State F} {sp : SubPath F} (h : RealPath s extra start sp) {a : String}
    (ha : s.ts.hasAction a = true) {trans : List (Transition F)} (hn : s.ts.next sp.dest.loc a = .ok trans)
    {t : Transition F} (ht : t ∈ trans) {ns ns' : State F} (hus : t.useTransition sp.dest = (true, ns))
    (hns : ns.extrapolateWith s.ts extra = .ok ns') : RealPath s extra start ⟨(t, a) :: sp.taken, ns'⟩ := by
  obtain ⟨htl, hg⟩ := hs.next_ok h.loc ha hn t ht
  have hloc := ((C05_use_transition t sp.dest hg.upd).2 (by rw [hus])).1
  have hz := ((C05_use_transition t sp.dest hg.upd).2 (by rw [hus])).2
  rw [hus] at hloc hz
  dsimp only at hloc hz
  obtain ⟨b', hb', hns⟩ := bind_ok hns
  cases hns
  rw [hloc] at hb'
  have ha' : s.hasAction a = true := ha
  have hfol := h.follows.snoc ha hn ht
  refine ⟨by rw [hloc]; exact htl, by rw [hloc, List.reverse_cons]; exact hfol, ?_⟩
  intro b1 hb1 v hv
  dsimp only at hb1 hv ⊢
  rw [hloc, hb'] at hb1; cases hb1
  obtain ⟨u, hu, e1⟩ := extrapolate_equiv _ _ _ hv
  rw [hz] at hu
  obtain ⟨x, hx, hgx, d, hd, rfl, hinv⟩ := hu
  obtain ⟨b, hb⟩ := hs.bounds _ h.loc
  obtain ⟨v₀, hv₀, w, hwv, he, hrun⟩ := h.real b hb x hx
  have hxv := den_valid hx
  have heb : b.Equiv x w := (Bounds.weaker_add_left b extra).equiv he
  have hgw : w ∈ den t.guard := hc.guard h.loc hb ha' hn ht x w hxv hwv heb hgx
  have hweak : (b.add extra).Weaker (b'.add extra) := (hc.next h.loc hb ha' hn ht hb').add (.refl _)
  have her : (b'.add extra).Equiv (runUpdates t.updates x) (runUpdates t.updates w) := (hweak.equiv he).run
  have hrx := hg.run_valid hxv
  have hrw := hg.run_valid hwv
  have hall : ∀ d', 0 ≤ d' → d' ≤ d → delay (dim F) (runUpdates t.updates w) d' ∈ InvSet t.target := by
    intro d' h1 h2
    refine hc.inv htl hb' _ _ (delay_valid hrx h1) (delay_valid hrw h1)
      ((Bounds.weaker_add_left b' extra).equiv (her.delay h1)) ?_
    refine hpast _ htl _ (d - d') (delay_valid hrx h1) (by linarith) ?_
    rw [delay_add]; simpa using hinv
  refine ⟨v₀, hv₀, delay (dim F) (runUpdates t.updates w) d, delay_valid hrw hd, e1.trans (her.delay hd), ?_⟩
  rw [hloc, List.reverse_cons]
  refine hrun.snoc ha hn ht ⟨hgw, ?_⟩ ⟨hd, hall⟩
  have := hall 0 (le_refl _) hd
  rwa [delay_zero] at this

theorem RealPath.start {s : Sys F} {extra : Bounds} {start : State F} (hl : s.IsLoc start.loc)
    (hinv : ∀ v ∈ den start.zone, v ∈ InvSet start.loc) : RealPath s extra start ⟨[], start⟩ := by
  refine ⟨hl, .nil _, fun b _ v hv => ⟨v, hv, v, den_valid hv, .refl _ _, ?_⟩⟩
  have : s.ts.RunVia start.loc v [] start.loc (delay (dim F) v 0) :=
    .done ⟨le_refl _, fun d h1 h2 => by rw [le_antisymm h2 h1, delay_zero]; exact hinv v hv⟩
  rwa [delay_zero] at this

/-- If a reachability query answers with a path, then from some valuation of the start state, waiting as long as
needed before each of them, the reported transitions can be taken one after the other, and the run ends in a location
that matches the requested one, with clock values that the query asks for.

Missing from the full property: components whose guards or invariants do other things than comparing a clock with a
literal (`C70_violated_difference`), invariants that are lower bounds
(`C14_violated_lower_bound_invariant`), and requested states that compare clocks with each other (for which no bounds
satisfy `hz`). -/
theorem C70_reachable_partial (zoneBounds : F → Bounds) (s : Sys F) (hs : s.OfPlain)
    (hpast : ∀ l, s.IsLoc l → PastClosed l) (start goal : State F) (hstart : s.IsLoc start.loc)
    (hgoal : s.IsPattern goal.loc) (hz : (zoneBounds goal.zone).Covers (dim F) (den goal.zone)) (fuel : Nat)
    (ds : List (Decision F)) (h : findPath zoneBounds s.ts start goal fuel = .ok (some ds)) :
    ∃ v₀ ∈ den start.zone, v₀ ∈ InvSet start.loc ∧ ∃ path l v, s.ts.RunVia start.loc v₀ path l v ∧
      ds.map (fun d => (d.transition, d.action)) = path.map (fun p => (some p.1, p.2)) ∧
      goal.loc.id.Matches l.id ∧ v ∈ den goal.zone := by
  have hg := hs.accepted.good
  unfold findPath at h
  split at h
  · cases h
  · unfold reachabilitySearch at h
    dsimp only at h
    obtain ⟨sp, hsp, hr, hp⟩ := searchLoop_all (P := RealPath s (zoneBounds goal.zone) start.applyInvariants)
      (fun sp hsp a ha trans hn t ht ns hus ns' hns =>
        hsp.step hg hs.covers hpast (mem_sortedActions.1 ha) hn ht hus hns) fuel _ ds
      (by intro x hx; rw [List.mem_singleton] at hx; subst hx
          exact RealPath.start hstart fun v hv => (mem_applyInvariants.1 hv).2) h
    obtain ⟨c, hcb, hcm⟩ := C35_match_partial s hs.accepted sp.dest.loc goal.loc hsp.loc hgoal
    unfold reachedEnd at hr
    rw [hcb] at hr
    cases c with
    | false => cases hr
    | true =>
      simp only [ok_bind, if_true, Except.ok.injEq] at hr
      obtain ⟨v, hv, hvg⟩ := (hasIntersection_iff _ _).1 hr
      obtain ⟨b, hb⟩ := hg.bounds _ hsp.loc
      obtain ⟨v₀, hv₀, w, hwv, he, hrun⟩ := hsp.real b hb v hv
      obtain ⟨h1, h2⟩ := mem_applyInvariants.1 hv₀
      exact ⟨v₀, h1, h2, _, _, w, hrun, (replay_spec hg hsp.follows (z := start.applyInvariants.zone) hstart hp).labels,
        hcm.1 rfl, hz v w (den_valid hvg) hwv ((Bounds.weaker_add_right _ _).equiv he) hvg⟩

theorem TS.RunVia.reach {ts : TS F} {l l' : LocTree F} {v v' : Val} {path : List (Transition F × String)}
    (h : ts.RunVia l v path l' v') : ts.Reach l v → ts.Reach l' v' := by
  induction h with
  | done hd => exact fun h => .delay h hd
  | step hd ha hn ht hc _ ih => exact fun h => ih (.act (.delay h hd) ⟨ha, _, hn, _, ht, hc, rfl, rfl⟩)

/-- The verdict of a query about the initial state: there is a path in the answer exactly if the system can get into
the requested state. -/
theorem C70_verdict_partial (zoneBounds : F → Bounds) (s : Sys F) (hs : s.OfPlain)
    (hpast : ∀ l, s.IsLoc l → PastClosed l) (start goal : State F) (hstart : s.ts.initialState = .ok (some start))
    (hgoal : s.IsPattern goal.loc) (hz : (zoneBounds goal.zone).Covers (dim F) (den goal.zone)) (fuel : Nat)
    (r : Option (List (Decision F))) (h : findPath zoneBounds s.ts start goal fuel = .ok r) :
    r.isSome = true ↔ ∃ l v, s.ts.Reach l v ∧ goal.loc.id.Matches l.id ∧ v ∈ den goal.zone := by
  obtain ⟨o, h3, h4⟩ := hs.accepted.good.initial
  constructor
  · intro hr
    obtain ⟨ds, rfl⟩ := Option.isSome_iff_exists.1 hr
    cases o with
    | none => exact absurd hstart (by
        show s.initialState ≠ _
        intro hc
        unfold Sys.initialState at hc
        rw [h3] at hc; cases hc)
    | some l₀ =>
      have h3' : s.ts.initialLoc = .ok (some l₀) := h3
      rcases Sys.initialState_spec h3' with ⟨hn, _⟩ | ⟨z, hz', hd⟩
      · rw [hn] at hstart; cases hstart
      rw [hz'] at hstart; cases hstart
      obtain ⟨v₀, hv₀, hi, path, l, v, hrun, _, hm, hv⟩ := C70_reachable_partial zoneBounds s hs hpast _ goal
        (h4 _ rfl) hgoal hz fuel ds h
      dsimp only at hv₀ hi hrun
      rw [hd] at hv₀
      obtain ⟨d, hd0, rfl⟩ := init_is_delay hv₀.1
      have hall : ∀ e, 0 ≤ e → e ≤ d → delay (dim F) zeroVal e ∈ InvSet l₀ := by
        intro e h1 h2
        refine hpast _ (h4 _ rfl) _ (d - e) (delay_valid Sys.zeroVal_valid h1) (by linarith) ?_
        rw [delay_add]; simpa using hi
      have h0 : zeroVal ∈ InvSet l₀ := by
        have := hall 0 (le_refl _) hd0
        rwa [delay_zero] at this
      exact ⟨l, v, hrun.reach (.delay (.init h3' h0) ⟨hd0, hall⟩), hm, hv⟩
  · rintro ⟨l, v, hr, hm, hv⟩
    cases r with
    | some _ => rfl
    | none => exact absurd hv (C15_unreachable_from_initial zoneBounds s hs.accepted start goal hstart hgoal fuel h l v hr hm)

/-! ## Concrete cases -/

theorem sysA_past : ∀ l, sysA.IsLoc l → PastClosed l := by
  let l0 : LocTree Fed4 := .leaf (.simple "L0") none .initial
  let l1 : LocTree Fed4 := .leaf (.simple "L1") (some (constrain univ 1 0 (.LE 5))) .normal
  rintro l ⟨p, hp, rfl⟩
  have hp : p ∈ [(LocId.simple "L0", l0), (.simple "L1", l1)] := hp
  rcases List.mem_cons.1 hp with rfl | hp
  · intro v d _ _ _ i hi; cases hi
  · rw [List.mem_singleton] at hp; subst hp
    intro v d hv hd h i hi
    have := h i hi
    cases hi
    rw [den_constrain _ _ _ _ (by decide) (by decide), den_univ] at this ⊢
    refine ⟨hv, ?_⟩
    have h2 := this.2
    simp only [Ineq.Sat, delay, dim_fed4] at h2 ⊢
    norm_num at h2 ⊢
    linarith

/-- Bounds for a zone that compares one clock with one constant. -/
def boundOf (i : Nat) (k : Int) : Bounds := fun j => if j = i then some k else none

theorem boundOf_covers_ge (k : Int) : (boundOf 1 k).Covers (dim Fed4) (den (constrain univ 0 1 (.LE (-k)) : Fed4)) := by
  intro v w hv hw he hm
  rw [den_constrain _ _ _ _ (by decide) (by decide), den_univ] at hm ⊢
  refine ⟨hw, ?_⟩
  have h := hm.2
  simp only [Ineq.Sat, hv.1, hw.1, Int.cast_neg] at h ⊢
  rcases he 1 with he | he
  · rw [← he]; exact h
  · have := (he k (by simp [boundOf])).2
    linarith

/-- Non-vacuity: in `A` the location `L1` can be reached with `x ≥ 3`, which the search finds out. -/
example : ∃ (start goal : State Fed4) (ds : List (Decision Fed4)), sysA.OfPlain ∧
    (∀ l, sysA.IsLoc l → PastClosed l) ∧ sysA.ts.initialState = .ok (some start) ∧ sysA.IsPattern goal.loc ∧
    (boundOf 1 3).Covers (dim Fed4) (den goal.zone) ∧
    findPath (fun _ => boundOf 1 3) sysA.ts start goal 10 = .ok (some ds) ∧ ds.length = 1 := by
  let l0 : LocTree Fed4 := .leaf (.simple "L0") none .initial
  let l1 : LocTree Fed4 := .leaf (.simple "L1") (some (constrain univ 1 0 (.LE 5))) .normal
  have hl1 : sysA.IsLoc l1 := ⟨(.simple "L1", l1), List.mem_cons_of_mem _ List.mem_cons_self, rfl⟩
  obtain ⟨ds, h1, h2⟩ := found_eq (n := 1)
    (r := findPath (fun _ => boundOf 1 3) sysA.ts ⟨l0, init⟩ ⟨l1, constrain univ 0 1 (.LE (-3))⟩ 10) (by decide +kernel)
  exact ⟨⟨l0, init⟩, ⟨l1, constrain univ 0 1 (.LE (-3))⟩, ds, sysA_ofPlain, sysA_past, rfl, .inr hl1,
    boundOf_covers_ge 3, h1, h2⟩

/-- In `L1` the clock `x` is two ahead of `y`, so that the first part of the last guard is never met. -/
def exAhead : Component := ⟨"T", ⟨[], [("x", 1), ("y", 2), ("z", 3)]⟩,
  [⟨"L0", none, .initial, "NORMAL"⟩, ⟨"L1", none, .normal, "NORMAL"⟩, ⟨"L2", none, .normal, "NORMAL"⟩],
  [⟨"e", "L0", "L1", .input, some (.eq (.var "y") (.int 2)), some [⟨"y", .int 0⟩, ⟨"z", .int 0⟩], "a"⟩,
   ⟨"f", "L1", "L2", .input, some (.or (.and (.le (.dif (.var "x") (.var "y")) (.int 1)) (.le (.var "z") (.int 1)))
     (.ge (.var "z") (.int 2))), none, "b"⟩]⟩

/-- The full property is false for guards that compare clocks with each other: the search answers with a path to `L2`
with `z ≤ 1`, but the system only gets there with `z ≥ 2`.  The bounds are right for the requested zone. -/
theorem C70_violated_difference :
    ∃ (s : Sys Fed4) (start goal : State Fed4) (zb : Fed4 → Bounds), s.Accepted ∧
      (∀ l, s.IsLoc l → PastClosed l) ∧ s.ts.initialState = .ok (some start) ∧
      s.IsPattern goal.loc ∧ (zb goal.zone).Covers (dim Fed4) (den goal.zone) ∧
      (∃ ds, findPath zb s.ts start goal 10 = .ok (some ds)) ∧
      ∀ v₀ ∈ den start.zone, ∀ l v, s.ts.RunFrom start.loc v₀ l v → goal.loc.id.Matches l.id → v ∉ den goal.zone := by
  let c : CompComp Fed4 := getOk (CompComp.compile id exAhead 0) (by decide +kernel)
  let l0 : LocTree Fed4 := .leaf (.simple "L0") none .initial
  let l1 : LocTree Fed4 := .leaf (.simple "L1") none .normal
  let l2 : LocTree Fed4 := .leaf (.simple "L2") none .normal
  let g : Fed4 := constrain (constrain univ 2 0 (.LE 2)) 0 2 (.LE (-2))
  let h : Fed4 := append (constrain (constrain univ 1 2 (.LE 1)) 3 0 (.LE 1)) (constrain univ 0 3 (.LE (-2)))
  let e : Transition Fed4 := ⟨.simple "e", g, l1, [⟨2, 0⟩, ⟨3, 0⟩]⟩
  let f : Transition Fed4 := ⟨.simple "f", h, l2, []⟩
  have hacc : (Sys.comp c).Accepted :=
    .comp (Component.ok_of_okB (by decide)) (fun _ => .refl _) (getOk_eq _)
  have hlocs : ∀ l, (Sys.comp c).IsLoc l → l = l0 ∨ l = l1 ∨ l = l2 := by
    rintro l ⟨p, hp, rfl⟩
    have hp : p ∈ [(LocId.simple "L0", l0), (.simple "L1", l1), (.simple "L2", l2)] := hp
    simp only [List.mem_cons, List.not_mem_nil, or_false] at hp
    rcases hp with rfl | rfl | rfl <;> simp
  have hl2 : (Sys.comp c).IsLoc l2 := ⟨(.simple "L2", l2),
    List.mem_cons_of_mem _ (List.mem_cons_of_mem _ List.mem_cons_self), rfl⟩
  have hn : ∀ l a trans, (l = l0 ∨ l = l1 ∨ l = l2) → (Sys.comp c).ts.hasAction a = true →
      (Sys.comp c).ts.next l a = .ok trans → ∀ t ∈ trans, (l = l0 ∧ t = e) ∨ (l = l1 ∧ t = f) := by
    intro l a trans hl ha hnx t ht
    have ha : a = "a" ∨ a = "b" := by
      have h1 : (Sys.comp c).ts.inputs = ["a", "b"] := by decide +kernel
      have h2 : (Sys.comp c).ts.outputs = [] := by decide +kernel
      unfold TS.hasAction at ha
      rw [h1, h2] at ha
      simpa using ha
    rcases hl with rfl | rfl | rfl <;> rcases ha with rfl | rfl
    · have : (Sys.comp c).ts.next l0 "a" = .ok [e] := rfl
      rw [this] at hnx; cases hnx; exact .inl ⟨rfl, List.mem_singleton.1 ht⟩
    · have : (Sys.comp c).ts.next l0 "b" = .ok [] := rfl
      rw [this] at hnx; cases hnx; cases ht
    · have : (Sys.comp c).ts.next l1 "a" = .ok [] := rfl
      rw [this] at hnx; cases hnx; cases ht
    · have : (Sys.comp c).ts.next l1 "b" = .ok [f] := rfl
      rw [this] at hnx; cases hnx; exact .inr ⟨rfl, List.mem_singleton.1 ht⟩
    · have : (Sys.comp c).ts.next l2 "a" = .ok [] := rfl
      rw [this] at hnx; cases hnx; cases ht
    · have : (Sys.comp c).ts.next l2 "b" = .ok [] := rfl
      rw [this] at hnx; cases hnx; cases ht
  refine ⟨.comp c, ⟨l0, init⟩, ⟨l2, constrain univ 3 0 (.LE 1)⟩, fun _ => boundOf 3 1, hacc, ?_, rfl, .inr hl2, ?_, ?_, ?_⟩
  · intro l hl v d _ _ _ i hi
    rcases hlocs l hl with rfl | rfl | rfl <;> cases hi
  · intro v w hv hw he hm
    rw [den_constrain _ _ _ _ (by decide) (by decide), den_univ] at hm ⊢
    refine ⟨hw, ?_⟩
    have h1 := hm.2
    simp only [Ineq.Sat, hv.1, hw.1] at h1 ⊢
    rcases he 3 with he | he
    · rw [← he]; exact h1
    · have := (he 1 (by simp [boundOf])).1
      norm_num at h1 this
      linarith
  · obtain ⟨ds, hd, _⟩ := found_eq (n := 2) (r := findPath (fun _ => boundOf 3 1) (Sys.comp c).ts ⟨l0, init⟩
      ⟨l2, constrain univ 3 0 (.LE 1)⟩ 10) (by decide +kernel)
    exact ⟨ds, hd⟩
  · intro v₀ hv₀ l v hrun
    have key : (l = l0 ∧ v 1 = v 2) ∨ (l = l1 ∧ v 1 = v 2 + 2 ∧ v 3 = v 2) ∨ (l = l2 ∧ 2 ≤ v 3) := by
      induction hrun with
      | refl =>
        dsimp only at hv₀
        rw [den_init] at hv₀
        exact .inl ⟨rfl, hv₀.2 1 2 (by decide) (by decide) (by decide) (by decide)⟩
      | @delay l v d h hd ih =>
        have h0 := hd.1
        simp only [delay, dim_fed4]; norm_num
        rcases ih with ih | ⟨h1, h2, h3⟩ | ⟨h1, h2⟩
        · exact .inl ih
        · exact .inr (.inl ⟨h1, by linarith, h3⟩)
        · exact .inr (.inr ⟨h1, by linarith⟩)
      | @act l v a l' v' hr hact ih =>
        obtain ⟨ha, trans, htr, t, ht, hc, rfl, rfl⟩ := hact
        rcases hn l a trans (by tauto) ha htr t ht with ⟨rfl, rfl⟩ | ⟨rfl, rfl⟩
        · rcases ih with ⟨_, ih⟩ | ⟨h1, _⟩ | ⟨h1, _⟩
          · have hg : v ∈ den g := hc.1
            rw [den_constrain _ _ _ _ (by decide) (by decide), den_constrain _ _ _ _ (by decide) (by decide)] at hg
            have h1 := hg.1.2
            have h2 := hg.2
            have h0 := (den_valid hg.1.1).1
            simp only [Ineq.Sat] at h1 h2
            norm_num at h1 h2
            refine .inr (.inl ⟨rfl, ?_, ?_⟩)
            · simp only [e, runUpdates, assign]
              norm_num
              linarith
            · simp only [e, runUpdates, assign]
              norm_num
          · have := congrArg LocTree.id h1
            simp [LocTree.id, l0, l1] at this
          · have := congrArg LocTree.id h1
            simp [LocTree.id, l0, l2] at this
        · rcases ih with ⟨h1, _⟩ | ⟨_, ih, ih'⟩ | ⟨h1, _⟩
          · have := congrArg LocTree.id h1
            simp [LocTree.id, l0, l1] at this
          · have hg : v ∈ den h := hc.1
            rw [den_append, den_constrain _ _ _ _ (by decide) (by decide), den_constrain _ _ _ _ (by decide) (by decide),
              den_constrain _ _ _ _ (by decide) (by decide)] at hg
            refine .inr (.inr ⟨rfl, ?_⟩)
            show 2 ≤ v 3
            rcases hg with hg | hg
            · have h1 := hg.1.2
              simp only [Ineq.Sat] at h1
              norm_num at h1
              linarith
            · have h2 := hg.2
              have h0 := (den_valid hg.1).1
              simp only [Ineq.Sat] at h2
              norm_num at h2
              linarith
          · have := congrArg LocTree.id h1
            simp [LocTree.id, l1, l2] at this
    intro hm hv
    rcases key with ⟨rfl, _⟩ | ⟨rfl, _⟩ | ⟨rfl, hk⟩
    · have := matches_simple (show (LocId.simple "L2").Matches (.simple "L0") from hm); simp at this
    · have := matches_simple (show (LocId.simple "L2").Matches (.simple "L1") from hm); simp at this
    · dsimp only at hv
      rw [den_constrain _ _ _ _ (by decide) (by decide)] at hv
      have h1 := hv.2
      have h0 := (den_valid hv.1).1
      simp only [Ineq.Sat] at h1
      norm_num at h1
      linarith

end Reveaal
