import Verif.Props.C78Query
import Verif.Props.C64Reach

/-!
# C78: answering a reachability query never crashes
-/

namespace Reveaal
open ZoneLib

section
variable {F : Type} [ZoneLib F]

/-! ## The path that was found can be followed again -/

/-- The transitions can be taken one after the other, waiting after each of them. -/
inductive Sys.Taken (s : Sys F) : LocTree F → Val → List (Transition F × String) → LocTree F → Val → Prop
  | nil (l : LocTree F) (v : Val) : Taken s l v [] l v
  | cons {l l' : LocTree F} {v w : Val} {t : Transition F} {a : String} {trans : List (Transition F)} {d : ℝ}
      {path : List (Transition F × String)} (ha : s.ts.hasAction a = true) (hn : s.ts.next l a = .ok trans) (ht : t ∈ trans)
      (hc : CanTake t v) (hd : 0 ≤ d) (hi : delay (dim F) (runUpdates t.updates v) d ∈ InvSet t.target)
      (h : Taken s t.target (delay (dim F) (runUpdates t.updates v) d) path l' w) : Taken s l v ((t, a) :: path) l' w

theorem Sys.Taken.snoc {s : Sys F} {l l' : LocTree F} {v w : Val} {path : List (Transition F × String)}
    (h : s.Taken l v path l' w) {t : Transition F} {a : String} {trans : List (Transition F)} {d : ℝ}
    (ha : s.ts.hasAction a = true) (hn : s.ts.next l' a = .ok trans) (ht : t ∈ trans) (hc : CanTake t w)
    (hd : 0 ≤ d) (hi : delay (dim F) (runUpdates t.updates w) d ∈ InvSet t.target) :
    s.Taken l v (path ++ [(t, a)]) t.target (delay (dim F) (runUpdates t.updates w) d) := by
  induction h with
  | nil l v => exact .cons ha hn ht hc hd hi (.nil _ _)
  | cons ha' hn' ht' hc' hd' hi' _ ih => exact .cons ha' hn' ht' hc' hd' hi' (ih hn hc hi)

/-- A decision is made for a transition that can be taken. -/
theorem decision_exists {s : State F} {t : Transition F} {a : String} (hu : UpdatesOk t.updates (dim F))
    (hn : NoConflict t.updates) {v : Val} (hv : v ∈ den s.zone) (hc : CanTake t v) :
    ∃ d, Decision.fromStateTransition s t a = .ok (some d) := by
  have hm : v ∈ den (inter s.zone t.allowed) := by rw [den_inter]; exact ⟨hv, (mem_allowed hu hn).2 hc⟩
  unfold Decision.fromStateTransition
  dsimp only
  rw [if_pos (by rw [Bool.not_eq_true', isEmpty_false_iff]; exact ⟨v, hm⟩)]
  cases h : t.useAlt ⟨s.loc, inter s.zone t.allowed⟩ with
  | some s' => exact ⟨_, rfl⟩
  | none =>
    have := ((C05_use_transition_alt t _ hu).2.1 h)
    exact absurd (show delay (dim F) (runUpdates t.updates v) 0 ∈ SuccSet t (den (inter s.zone t.allowed)) from
      ⟨v, hm, hc.1, 0, le_refl _, rfl, by rw [delay_zero]; exact hc.2⟩) (by rw [this]; exact fun h => h)

theorem replay_exists {s : Sys F} (hs : s.Good) (hcalm : s.Calm) {l l' : LocTree F} {v w : Val}
    {path : List (Transition F × String)} (h : s.Taken l v path l' w) : ∀ {z : F}, s.IsLoc l → v ∈ den z →
    ∃ ds, replay path ⟨l, z⟩ = .ok ds := by
  induction h with
  | nil l v => exact fun _ _ => ⟨[], rfl⟩
  | @cons l l' v w t a trans d path ha hn ht hc hd hi h ih =>
    intro z hl hv
    obtain ⟨htl, hg⟩ := hs.next_ok hl ha hn t ht
    obtain ⟨dec, hdec⟩ := decision_exists (s := ⟨l, z⟩) (a := a) hg.upd (hcalm l a trans hl ha hn t ht).2 hv hc
    have hmem : delay (dim F) (runUpdates t.updates v) d ∈ SuccSet t (den z) := ⟨v, hv, hc.1, d, hd, rfl, hi⟩
    have hu : (t.useTransition ⟨l, z⟩).1 = true := (C05_use_transition t ⟨l, z⟩ hg.upd).1.2 ⟨_, hmem⟩
    obtain ⟨hloc, hz⟩ := (C05_use_transition t ⟨l, z⟩ hg.upd).2 hu
    rw [replay, hdec, ok_bind]
    dsimp only
    generalize hgen : (t.useTransition ⟨l, z⟩).2 = st at hloc hz
    obtain ⟨sl, sz⟩ := st
    dsimp only at hloc hz
    subst hloc
    obtain ⟨ds, hds⟩ := ih (z := sz) htl (by rw [hz]; exact hmem)
    rw [hds]
    exact ⟨_, rfl⟩

/-- The same as `RealPath`, where waiting before the first transition is not allowed. -/
structure TakenPath (s : Sys F) (extra : Bounds) (start : State F) (sp : SubPath F) : Prop where
  loc : s.IsLoc sp.dest.loc
  some : sp.taken = [] ∨ ∃ v, v ∈ den sp.dest.zone
  real : ∀ b, s.ts.localBounds sp.dest.loc = .ok b → ∀ v ∈ den sp.dest.zone, ∃ v₀ ∈ den start.zone, ∃ w,
    Valid (dim F) w ∧ (b.add extra).Equiv v w ∧ s.Taken start.loc v₀ sp.taken.reverse sp.dest.loc w

theorem TakenPath.step {s : Sys F} (hs : s.Good) (hc : s.BoundsCover) (hpast : ∀ l, s.IsLoc l → PastClosed l)
    {extra : Bounds} {start : State F} {sp : SubPath F} (h : TakenPath s extra start sp) {a : String}
    (ha : s.ts.hasAction a = true) {trans : List (Transition F)} (hn : s.ts.next sp.dest.loc a = .ok trans)
    {t : Transition F} (ht : t ∈ trans) {ns ns' : State F} (hus : t.useTransition sp.dest = (true, ns))
    (hns : ns.extrapolateWith s.ts extra = .ok ns') : TakenPath s extra start ⟨(t, a) :: sp.taken, ns'⟩ := by
  obtain ⟨htl, hg⟩ := hs.next_ok h.loc ha hn t ht
  obtain ⟨x0, hx0⟩ := (C05_use_transition t sp.dest hg.upd).1.1 (by rw [hus])
  have hloc := ((C05_use_transition t sp.dest hg.upd).2 (by rw [hus])).1
  have hz := ((C05_use_transition t sp.dest hg.upd).2 (by rw [hus])).2
  rw [hus] at hloc hz
  dsimp only at hloc hz
  obtain ⟨b', hb', hns⟩ := bind_ok hns
  cases hns
  rw [hloc] at hb'
  have ha' : s.hasAction a = true := ha
  refine ⟨by rw [hloc]; exact htl, .inr ⟨x0, extrapolate_sup _ _ (by rw [hz]; exact hx0)⟩, ?_⟩
  intro b1 hb1 v hv
  dsimp only at hb1 hv ⊢
  rw [hloc, hb'] at hb1; cases hb1
  obtain ⟨u, hu, e1⟩ := extrapolate_equiv _ _ _ hv
  rw [hz] at hu
  obtain ⟨x, hx, hgx, d, hd, rfl, hinv⟩ := hu
  obtain ⟨b, hb⟩ := hs.bounds _ h.loc
  obtain ⟨v₀, hv₀, w, hwv, he, hrun⟩ := h.real b hb x hx
  have hxv := den_valid hx
  have heb : b.Equiv x w := (Bounds.weaker_add_left b extra).equiv he
  have hgw : w ∈ den t.guard := hc.guard h.loc hb ha' hn ht x w hxv hwv heb hgx
  have hweak : (b.add extra).Weaker (b'.add extra) := (hc.next h.loc hb ha' hn ht hb').add (.refl _)
  have her : (b'.add extra).Equiv (runUpdates t.updates x) (runUpdates t.updates w) := (hweak.equiv he).run
  have hrx := hg.run_valid hxv
  have hrw := hg.run_valid hwv
  have hall : ∀ d', 0 ≤ d' → d' ≤ d → delay (dim F) (runUpdates t.updates w) d' ∈ InvSet t.target := by
    intro d' h1 h2
    refine hc.inv htl hb' _ _ (delay_valid hrx h1) (delay_valid hrw h1)
      ((Bounds.weaker_add_left b' extra).equiv (her.delay h1)) ?_
    refine hpast _ htl _ (d - d') (delay_valid hrx h1) (by linarith) ?_
    rw [delay_add]; simpa using hinv
  refine ⟨v₀, hv₀, delay (dim F) (runUpdates t.updates w) d, delay_valid hrw hd, e1.trans (her.delay hd), ?_⟩
  rw [hloc, List.reverse_cons]
  refine hrun.snoc ha hn ht ⟨hgw, ?_⟩ hd (hall d hd le_rfl)
  have := hall 0 (le_refl _) hd
  rwa [delay_zero] at this

/-! ## The search -/

theorem takeTransitions_exists {s : Sys F} (hs : s.Good) {extra : Bounds} {sp : SubPath F} {a : String} :
    ∀ {tl : List (Transition F)}, (∀ t ∈ tl, s.IsLoc t.target ∧ UpdatesOk t.updates (dim F)) → ∀ (st : Search F),
      ∃ st', takeTransitions s.ts extra sp a tl st = .ok st'
  | [], _, st => ⟨st, rfl⟩
  | t :: tl, h, st => by
    obtain ⟨htl, hu⟩ := h t (by simp)
    have : ∃ st', takeTransition s.ts extra sp a t st = .ok st' := by
      unfold takeTransition
      cases hus : t.useTransition sp.dest with
      | mk b ns =>
        cases b with
        | false => exact ⟨st, rfl⟩
        | true =>
          have hloc := ((C05_use_transition t sp.dest hu).2 (by rw [hus])).1
          rw [hus] at hloc
          obtain ⟨b, hb⟩ := hs.bounds _ htl
          dsimp only at hloc ⊢
          have : ns.extrapolateWith s.ts extra = .ok ⟨ns.loc, extrapolate ns.zone (b.add extra)⟩ := by
            unfold State.extrapolateWith
            rw [hloc, show s.ts.localBounds t.target = _ from hb, ok_bind]
          rw [this, ok_bind]
          split
          · exact ⟨_, rfl⟩
          · exact ⟨_, rfl⟩
    obtain ⟨st', h'⟩ := this
    rw [takeTransitions, h', ok_bind]
    exact takeTransitions_exists hs (fun t ht => h t (by simp [ht])) st'

theorem takeActions_exists {s : Sys F} (hs : s.Good) {extra : Bounds} {sp : SubPath F} (hl : s.IsLoc sp.dest.loc) :
    ∀ {as : List String}, (∀ a ∈ as, s.ts.hasAction a = true) → ∀ (st : Search F),
      ∃ st', takeActions s.ts extra sp as st = .ok st'
  | [], _, st => ⟨st, rfl⟩
  | a :: as, h, st => by
    have ha := h a (by simp)
    obtain ⟨trans, hn, _⟩ := hs.next _ a hl ha
    obtain ⟨st', h'⟩ := takeTransitions_exists hs (extra := extra) (sp := sp) (a := a)
      (fun t ht => ⟨(hs.next_ok hl ha hn t ht).1, (hs.next_ok hl ha hn t ht).2.upd⟩) st
    rw [takeActions, show s.ts.next sp.dest.loc a = _ from hn, ok_bind, h', ok_bind]
    exact takeActions_exists hs hl (fun a ha => h a (by simp [ha])) st'

/-- The search ends with an answer or is cut off. -/
theorem searchLoop_answers {s : Sys F} (hs : s.Good) {extra : Bounds} {actions : List String}
    (hacts : ∀ a ∈ actions, s.ts.hasAction a = true) {start goal : State F}
    {P : SubPath F → Prop} (hP : ∀ sp, P sp → ∀ a ∈ actions, ∀ trans, s.ts.next sp.dest.loc a = .ok trans →
      ∀ t ∈ trans, ∀ ns, t.useTransition sp.dest = (true, ns) →
      ∀ ns', ns.extrapolateWith s.ts extra = .ok ns' → P ⟨(t, a) :: sp.taken, ns'⟩)
    (hloc : ∀ sp, P sp → s.IsLoc sp.dest.loc) (hend : ∀ sp, P sp → ∃ b, reachedEnd sp.dest goal = .ok b)
    (hpath : ∀ sp, P sp → ∃ ds, makePath sp start = .ok ds) : ∀ (fuel : Nat) (st : Search F), (∀ x ∈ st.frontier, P x) →
    (∃ r, searchLoop s.ts extra actions start goal fuel st = .ok r) ∨
      searchLoop s.ts extra actions start goal fuel st = .error .fuel := by
  intro fuel
  induction fuel with
  | zero => intro st _; exact .inr rfl
  | succ n ih =>
    intro st hst
    obtain ⟨frontier, visited⟩ := st
    rw [searchLoop]
    cases frontier with
    | nil => exact .inl ⟨none, rfl⟩
    | cons sp rest =>
      have hsp := hst sp (by simp)
      dsimp only
      obtain ⟨b, hb⟩ := hend sp hsp
      rw [hb, ok_bind]
      cases b with
      | true =>
        obtain ⟨ds, hds⟩ := hpath sp hsp
        simp only [if_true]
        rw [hds]
        exact .inl ⟨_, rfl⟩
      | false =>
        simp only [Bool.false_eq_true, if_false]
        obtain ⟨st', h'⟩ := takeActions_exists hs (extra := extra) (hloc sp hsp) hacts ⟨rest, visited⟩
        rw [h', ok_bind]
        exact ih st' (takeActions_all (hP sp hsp) (fun x hx => hst x (by simp only [List.mem_cons]; exact .inr hx)) h')

/-- **C78** The search of a reachability query ends with an answer: in systems of components that compare clocks with numbers,
whose invariants are deadlines and whose edges do not assign two values to one clock. -/
theorem C78_search_partial (hfin : FiniteExtrapolation F) (zoneBounds : F → Bounds) (s : Sys F) (hs : s.OfPlain)
    (hpast : ∀ l, s.IsLoc l → PastClosed l) (hcalm : s.Calm) (start goal : State F) (hstart : s.IsLoc start.loc)
    (hgoal : s.IsPattern goal.loc) : Decided fun n => findPath zoneBounds s.ts start goal n := by
  have hg := hs.accepted.good
  obtain ⟨N, r, hr, h⟩ := C59_reachability hfin hs.accepted zoneBounds start goal hstart
  refine ⟨N, ?_⟩
  suffices hn : (∃ r, findPath zoneBounds s.ts start goal N = .ok r) ∨ findPath zoneBounds s.ts start goal N = .error .fuel by
    rcases hn with ⟨x, hx⟩ | hx
    · refine ⟨x, fun n hn => ?_⟩
      rw [← hx]
      exact (h n hn).trans (h N le_rfl).symm
    · exact absurd ((h N le_rfl).symm.trans hx) hr
  unfold findPath
  split
  · exact .inl ⟨_, rfl⟩
  · unfold reachabilitySearch
    dsimp only
    refine searchLoop_answers hg (fun a ha => mem_sortedActions.1 ha)
      (P := TakenPath s (zoneBounds goal.zone) start.applyInvariants)
      (fun sp hsp a ha trans hn t ht ns hus ns' hns =>
        hsp.step hg hs.covers hpast (mem_sortedActions.1 ha) hn ht hus hns) (fun sp hsp => hsp.loc) ?_ ?_ N _ ?_
    · intro sp hsp
      obtain ⟨c, hcb, _⟩ := C35_match_partial s hs.accepted sp.dest.loc goal.loc hsp.loc hgoal
      unfold reachedEnd
      rw [hcb, ok_bind]
      split
      · exact ⟨_, rfl⟩
      · exact ⟨_, rfl⟩
    · intro sp hsp
      rcases hsp.some with h0 | ⟨v, hv⟩
      · refine ⟨[], ?_⟩
        unfold makePath
        rw [h0]; rfl
      · obtain ⟨b, hb⟩ := hg.bounds _ hsp.loc
        obtain ⟨v₀, hv₀, w, _, _, hrun⟩ := hsp.real b hb v hv
        exact replay_exists hg hcalm hrun (z := start.applyInvariants.zone) hstart hv₀
    · intro x hx
      rw [List.mem_singleton] at hx; subst hx
      exact ⟨hstart, .inl rfl, fun b _ v hv => ⟨v, hv, v, den_valid hv, .refl _ _, .nil _ _⟩⟩

/-! ## The states of the query -/

/-- The comparisons are of the fragment of C01, and nothing is negated. -/
inductive StateExpr.Asked (r : Recipe) : StateExpr → Prop
  | cmp {op : Cmp} {a b : Operand} (h : ∀ x y, a.toArith r.namedComponents = .ok x →
      b.toArith r.namedComponents = .ok y → GoodSides ⟨[], []⟩ x y) : Asked r (.cmp op a b)
  | and {es : List StateExpr} (h0 : es ≠ []) (h : ∀ e ∈ es, Asked r e) : Asked r (.and es)
  | or {es : List StateExpr} (h0 : es ≠ []) (h : ∀ e ∈ es, Asked r e) : Asked r (.or es)
  | location (x : CompVar) : Asked r (.location x)
  | bool (b : Bool) : Asked r (.bool b)

/-- The state is one the program takes: a conjunction of known clocks and locations, of components that can be told apart,
with one location for a component. -/
structure StateExpr.Acceptable (r : Recipe) (e : StateExpr) : Prop where
  simple : e.Simple r
  comps : ∀ c ∈ r.namedComponents, ∀ d ∈ r.namedComponents, c.1.name = d.1.name → c.2 = d.2 → c = d
  one : ∀ x y, e.Names x → e.Names y → x.component = y.component → x.specialId = y.specialId → x.name = y.name

theorem StateExpr.Asked.readable {r : Recipe} {e : StateExpr} (h : e.Asked r) : e.Readable r := by
  induction h with
  | cmp h => exact .cmp h
  | and _ _ ih => exact .and ih
  | or _ _ ih => exact .or ih
  | location x => exact .location x
  | bool b => exact .bool b

omit [ZoneLib F] in
theorem NoCrash.bind {α β : Type} {p : Prop} {x : Res α} {f : α → Res β} (hx : NoCrash p x)
    (hf : ∀ a, x = .ok a → NoCrash p (f a)) : NoCrash p (x >>= f) := by
  match x, hx, hf with
  | .ok a, _, hf => exact hf a rfl
  | .error (.err _), h, _ => exact h
  | .error (.panic _), h, _ => exact h

theorem Operand.toArith_noCrash (cs : List (Component × Option String)) : ∀ o : Operand, NoCrash True (o.toArith cs)
  | .number _ => trivial
  | .clock v => by
    rw [Operand.toArith]
    split
    · trivial
    · split
      · trivial
      · trivial
  | .difference l r => by
    rw [Operand.toArith]
    exact (toArith_noCrash cs l).bind fun _ _ => (toArith_noCrash cs r).bind fun _ _ => trivial
  | .sum l r => by
    rw [Operand.toArith]
    exact (toArith_noCrash cs l).bind fun _ _ => (toArith_noCrash cs r).bind fun _ _ => trivial

theorem toBools_noCrash {cs : List (Component × Option String)} : ∀ {es : List StateExpr},
    (∀ e ∈ es, NoCrash True (e.toBool cs)) → NoCrash True (StateExpr.toBools cs es) ∧
      ∀ gs, StateExpr.toBools cs es = .ok gs → gs.length = es.length
  | [], _ => ⟨trivial, fun gs h => by cases h; rfl⟩
  | e :: es, h => by
    obtain ⟨h1, h2⟩ := toBools_noCrash (cs := cs) (es := es) fun e he => h e (by simp [he])
    rw [StateExpr.toBools]
    refine ⟨(h e (by simp)).bind fun _ _ => h1.bind fun _ _ => trivial, fun gs hg => ?_⟩
    obtain ⟨g, _, hg⟩ := bind_ok hg
    obtain ⟨gs', h3, hg⟩ := bind_ok hg
    cases hg
    rw [List.length_cons, List.length_cons, h2 _ h3]

theorem foldOperands_noCrash {op : BoolE → BoolE → BoolE} {gs : List BoolE} (h : gs ≠ []) : NoCrash True (foldOperands op gs) := by
  cases gs with
  | nil => exact absurd rfl h
  | cons g gs => trivial

theorem StateExpr.Asked.toBool {r : Recipe} {e : StateExpr} (h : e.Asked r) : NoCrash True (e.toBool r.namedComponents) := by
  induction h with
  | cmp h =>
    rw [StateExpr.toBool]
    exact (Operand.toArith_noCrash _ _).bind fun _ _ => (Operand.toArith_noCrash _ _).bind fun _ _ => trivial
  | @and es h0 _ ih =>
    rw [StateExpr.toBool]
    refine (toBools_noCrash ih).1.bind fun gs hg => foldOperands_noCrash ?_
    rintro rfl
    exact h0 (List.eq_nil_of_length_eq_zero ((toBools_noCrash ih).2 _ hg).symm)
  | @or es h0 _ ih =>
    rw [StateExpr.toBool]
    refine (toBools_noCrash ih).1.bind fun gs hg => foldOperands_noCrash ?_
    rintro rfl
    exact h0 (List.eq_nil_of_length_eq_zero ((toBools_noCrash ih).2 _ hg).symm)
  | location x => rw [StateExpr.toBool]; trivial
  | bool b => rw [StateExpr.toBool]; trivial

mutual
theorem getLocations_noCrash : ∀ e : StateExpr, NoCrash True e.getLocations
  | .and es => by rw [StateExpr.getLocations]; exact getAllLocations_noCrash es
  | .or es => by
    rw [StateExpr.getLocations]
    refine (getAllLocations_noCrash es).bind fun x _ => ?_
    split
    · trivial
    · trivial
  | .location v => by rw [StateExpr.getLocations]; trivial
  | .not e => by
    rw [StateExpr.getLocations]
    refine (getLocations_noCrash e).bind fun x _ => ?_
    split
    · trivial
    · trivial
  | .cmp _ _ _ => by rw [StateExpr.getLocations]; trivial
  | .bool _ => by rw [StateExpr.getLocations]; trivial
theorem getAllLocations_noCrash : ∀ es : List StateExpr, NoCrash True (StateExpr.getAllLocations es)
  | [] => by rw [StateExpr.getAllLocations]; trivial
  | e :: es => by
    rw [StateExpr.getAllLocations]
    exact (getLocations_noCrash e).bind fun _ _ => (getAllLocations_noCrash es).bind fun _ _ => trivial
end

theorem locationTree_noCrash {vs : List CompVar} : ∀ {r : Recipe} {env : CompileEnv F} {i j : Nat} {s : Sys F},
    r.compile env i = .ok (s, j) → NoCrash True (r.locationTree vs s)
  | .composition l r, env, i, j, s, hs => by
    obtain ⟨⟨sl, k⟩, h1, hs⟩ := bind_ok hs
    obtain ⟨⟨sr, k'⟩, h2, hs⟩ := bind_ok hs
    obtain ⟨s', h3, hs⟩ := bind_ok hs
    cases hs
    obtain ⟨_, rfl⟩ := Sys.newComposition_eq h3
    rw [Recipe.locationTree, Sys.children, ok_bind]
    exact (locationTree_noCrash h1).bind fun _ _ => (locationTree_noCrash h2).bind fun _ _ => trivial
  | .conjunction l r, env, i, j, s, hs => by
    obtain ⟨⟨sl, k⟩, h1, hs⟩ := bind_ok hs
    obtain ⟨⟨sr, k'⟩, h2, hs⟩ := bind_ok hs
    obtain ⟨s', h3, hs⟩ := bind_ok hs
    cases hs
    obtain ⟨_, _, rfl⟩ := Sys.newConjunction_eq (newConjunction_unchecked h3)
    rw [Recipe.locationTree, Sys.children, ok_bind]
    exact (locationTree_noCrash h1).bind fun _ _ => (locationTree_noCrash h2).bind fun _ _ => trivial
  | .quotient l r q, env, i, j, s, hs => by
    obtain ⟨⟨sl, k⟩, h1, hs⟩ := bind_ok hs
    obtain ⟨⟨sr, k'⟩, h2, hs⟩ := bind_ok hs
    obtain ⟨s', h3, hs⟩ := bind_ok hs
    cases hs
    obtain ⟨_, rfl⟩ := Sys.newQuotient_eq (newQuotient_unchecked h3)
    rw [Recipe.locationTree, Sys.children, ok_bind]
    exact (locationTree_noCrash h1).bind fun _ _ => (locationTree_noCrash h2).bind fun _ _ => trivial
  | .component c id, env, i, j, s, hs => by
    obtain ⟨x, h1, hs⟩ := bind_ok hs
    cases hs
    rw [Recipe.locationTree]
    split
    · trivial
    · unfold Sys.getLocation
      dsimp only
      rw [ok_bind]
      split
      · trivial
      · trivial

/-- A state is made from its text without a crash, and refused only if it is not acceptable. -/
theorem getState_noCrash {env : CompileEnv F} (henv : env.Perm) {r : Recipe} (hr : r.Ok (dim F)) {s : Sys F}
    {i j : Nat} (hs : r.compile env i = .ok (s, j)) {e : StateExpr} (he : e.Asked r) :
    NoCrash (¬ e.Acceptable r) (getState e r s) := by
  by_cases ha : e.Acceptable r
  · rcases C46_accepts env henv r hr s i j hs e he.readable ha.simple ha.comps ha.one with ⟨st, h⟩ | h
    · rw [h]; trivial
    · rw [h]; rfl
  · refine NoCrash.mono (p := True) ?_ fun _ => ha
    unfold getState
    cases hamb : ambiguousComponents r.namedComponents with
    | true => trivial
    | false =>
      simp only [Bool.false_eq_true, if_false]
      refine (getLocations_noCrash e).bind fun vs _ => ?_
      split
      · trivial
      · refine (locationTree_noCrash hs).bind fun t _ => he.toBool.bind fun g hg => ?_
        obtain ⟨hgood, hdim, _⟩ := toBool_clocks hamb (fun c hc => (hr.1 c.1 (namedComponents_mem hc)).decls) he.readable hg
        have := C01_guard_exact_partial (F := F) ⟨[], []⟩ (fun p hp => by cases hp) g hdim hgood univ
        exact (OkOrOvf.noCrash this True).bind fun _ _ => trivial

/-- A tree is partial only if some component is not named. -/
theorem locationTree_partial {vs : List CompVar} : ∀ {r : Recipe} {env : CompileEnv F} {i j : Nat} {s : Sys F} {t : LocTree F},
    env.Perm → r.Ok (dim F) → r.compile env i = .ok (s, j) → r.locationTree vs s = .ok t → t.id.isPartial = true →
    ∃ c id, (c, id) ∈ r.namedComponents ∧ ∀ v ∈ vs, v.component = c.name → v.specialId ≠ id
  | .composition l r, env, i, j, s, t, he, ho, hs, h, hp => by
    obtain ⟨hl, hr⟩ := Recipe.Ok.split (p := l.quotientClocks) (q := r.quotientClocks) ho
    obtain ⟨⟨sl, k⟩, h1, hs⟩ := bind_ok hs
    obtain ⟨⟨sr, k'⟩, h2, hs⟩ := bind_ok hs
    obtain ⟨s', h3, hs⟩ := bind_ok hs
    cases hs
    obtain ⟨_, rfl⟩ := Sys.newComposition_eq h3
    rw [Recipe.locationTree, Sys.children, ok_bind] at h
    obtain ⟨tl, h4, h⟩ := bind_ok h
    obtain ⟨tr, h5, h⟩ := bind_ok h
    cases h
    rcases Bool.or_eq_true_iff.1 (show (tl.id.isPartial || tr.id.isPartial) = true from hp) with hp | hp
    · obtain ⟨c, id, hm, hn⟩ := locationTree_partial (env := env.sub false) he hl h1 h4 hp
      exact ⟨c, id, List.mem_append_left _ hm, hn⟩
    · obtain ⟨c, id, hm, hn⟩ := locationTree_partial (env := env.sub true) he hr h2 h5 hp
      exact ⟨c, id, List.mem_append_right _ hm, hn⟩
  | .conjunction l r, env, i, j, s, t, he, ho, hs, h, hp => by
    obtain ⟨hl, hr⟩ := Recipe.Ok.split (p := l.quotientClocks) (q := r.quotientClocks) ho
    obtain ⟨⟨sl, k⟩, h1, hs⟩ := bind_ok hs
    obtain ⟨⟨sr, k'⟩, h2, hs⟩ := bind_ok hs
    obtain ⟨s', h3, hs⟩ := bind_ok hs
    cases hs
    obtain ⟨_, _, rfl⟩ := Sys.newConjunction_eq (newConjunction_unchecked h3)
    rw [Recipe.locationTree, Sys.children, ok_bind] at h
    obtain ⟨tl, h4, h⟩ := bind_ok h
    obtain ⟨tr, h5, h⟩ := bind_ok h
    cases h
    rcases Bool.or_eq_true_iff.1 (show (tl.id.isPartial || tr.id.isPartial) = true from hp) with hp | hp
    · obtain ⟨c, id, hm, hn⟩ := locationTree_partial (env := env.sub false) he hl h1 h4 hp
      exact ⟨c, id, List.mem_append_left _ hm, hn⟩
    · obtain ⟨c, id, hm, hn⟩ := locationTree_partial (env := env.sub true) he hr h2 h5 hp
      exact ⟨c, id, List.mem_append_right _ hm, hn⟩
  | .quotient l r q, env, i, j, s, t, he, ho, hs, h, hp => by
    obtain ⟨hl, hr, _, _⟩ := Recipe.Ok.quotient ho
    obtain ⟨⟨sl, k⟩, h1, hs⟩ := bind_ok hs
    obtain ⟨⟨sr, k'⟩, h2, hs⟩ := bind_ok hs
    obtain ⟨s', h3, hs⟩ := bind_ok hs
    cases hs
    obtain ⟨_, rfl⟩ := Sys.newQuotient_eq (newQuotient_unchecked h3)
    rw [Recipe.locationTree, Sys.children, ok_bind] at h
    obtain ⟨tl, h4, h⟩ := bind_ok h
    obtain ⟨tr, h5, h⟩ := bind_ok h
    cases h
    rcases Bool.or_eq_true_iff.1 (show (tl.id.isPartial || tr.id.isPartial) = true from hp) with hp | hp
    · obtain ⟨c, id, hm, hn⟩ := locationTree_partial (env := env.sub false) he hl h1 h4 hp
      exact ⟨c, id, List.mem_append_left _ hm, hn⟩
    · obtain ⟨c, id, hm, hn⟩ := locationTree_partial (env := env.sub true) he hr h2 h5 hp
      exact ⟨c, id, List.mem_append_right _ hm, hn⟩
  | .component c id, env, i, j, s, t, he, ho, hs, h, hp => by
    refine ⟨c, id, List.mem_singleton.2 rfl, ?_⟩
    rcases (leaf_spec he ho hs h).2 with ⟨_, hn⟩ | ⟨v, _, _, _, hid, _⟩
    · exact hn
    · rw [hid] at hp; cases hp

/-- A query is refused because of its start state: a component is left out, the state is not acceptable, or, if none is
given, the system has no initial state. -/
def StartRefused (F : Type) [ZoneLib F] (r : Recipe) : Option StateExpr → Prop
  | some e => ¬ e.Acceptable r ∨ ∃ c id, (c, id) ∈ r.namedComponents ∧
      ∀ x, e.Names x → x.component = c.name → x.specialId ≠ id
  | none => ∃ s : Sys F, r.Means s ∧ s.ts.initialState = .ok none

theorem queryStart_noCrash {env : CompileEnv F} (henv : env.Perm) {r : Recipe} (hr : r.Ok (dim F)) {s : Sys F}
    {i j : Nat} (hs : r.compile env i = .ok (s, j)) {start : Option StateExpr} (he : ∀ e, start = some e → e.Asked r) :
    NoCrash (StartRefused F r start) (queryStart r s start) := by
  cases start with
  | some e =>
    unfold queryStart
    refine ((getState_noCrash henv hr hs (he e rfl)).mono .inl).bind fun st hst => ?_
    split
    · rename_i hp
      obtain ⟨_, vs, g, h1, _, h7, _⟩ := getState_parts hst
      obtain ⟨c, id, hm, hn⟩ := locationTree_partial henv hr hs h7 hp
      exact .inr ⟨c, id, hm, fun x hx => hn x ((h1 x).2 hx)⟩
    · trivial
  | none =>
    unfold queryStart
    obtain ⟨o, ho, _⟩ := (Recipe.compile_accepted henv hr hs).good.initial
    cases o with
    | none =>
      have : s.initialState = .ok none := by unfold Sys.initialState; rw [ho]; rfl
      rw [this, ok_bind]
      exact ⟨s, ⟨env, i, j, henv, hs⟩, this⟩
    | some l =>
      rcases Sys.initialState_spec ho with ⟨h5, _⟩ | ⟨z, h5, _⟩
      · rw [show s.initialState = .ok none from h5, ok_bind]
        exact ⟨s, ⟨env, i, j, henv, hs⟩, h5⟩
      · rw [show s.initialState = _ from h5, ok_bind]
        trivial

end

/-! ## Queries -/

variable {Z : Nat → Type} [∀ d, ZoneLib (Z d)]

/-- **C78** (partial) Reachability queries end, with an answer or with an error message that refuses the system or one of the
states; the only crash is an overflow of constants: for systems of complete components that compare clocks with numbers,
whose invariants are deadlines (`C78_violated_lower_bound`) and whose edges do not assign two values to one clock
(`C78_violated_two_values`). -/
theorem C78_reachability_partial (hZ : ∀ d, dim (Z d) = d + 1) (hfin : ∀ d, FiniteExtrapolation (Z d)) (X : QueryEnv Z)
    (hX : X.Fair) (load : String → Res Component) (hload : ∀ n c, load n = .ok c → c.decls.Numbered) (e : SysExpr)
    (r : Recipe) (d : Nat) (q : Option Nat) (hr : getRecipes load [e] 0 none = .ok ([r], d, q)) (hc : r.Searchable d)
    (hpl : ∀ c ∈ r.components, c.Plain ∧ c.Deadlines (d + 1)) (hcc : ∀ c ∈ r.components, c.Complete)
    (hr1 : r.FairEnv (X.compiled d)) (start : Option StateExpr) (goal : StateExpr)
    (hst : ∀ e, start = some e → e.Asked r) (hg : goal.Asked r) :
    EndsWell (r.Refused (Z d) ∨ StartRefused (Z d) r start ∨ ¬ goal.Acceptable r) fun n =>
      (X.withFuel n).run load (.reachability e start goal) := by
  have hok : r.Ok (dim (Z d)) := Recipe.Searchable.ok hZ hload hr hc
  obtain ⟨hnum, hq⟩ := C60_numbered hload hr
  obtain ⟨hnd, hfresh, _⟩ := numbering hnum
  obtain ⟨ρ, hρ, _⟩ := Recipe.ReducedTo.refl hok (by rw [hZ]; exact hc.comps) hnd hfresh hq
  obtain ⟨q', hq'⟩ := hρ.steady
  obtain ⟨⟨r0, d1, q1⟩, ha, hr⟩ := bind_ok hr
  cases hr
  unfold QueryEnv.run
  dsimp only
  rw [ha]
  simp only [ok_bind]
  unfold QueryEnv.reachabilityOf reachabilityQuery
  simp only [bind_assoc]
  have hperm := (hX.compiled d).2.2.1
  refine ((C78_compile_partial (hfin d) r (X.compiled d) 0 hperm hok hcc hr1).mono .inl).bind fun x N hN => ?_
  obtain ⟨s, j⟩ := x
  have hs := hN N le_rfl
  have hperm' : ((X.compiled d).withFuel N).Perm := hperm
  dsimp only
  refine EndsWell.bind (f := fun _ => queryStart r s start) (.const ((queryStart_noCrash hperm' hok hs hst).mono
    fun h => .inr (.inl h))) fun st M hM => ?_
  refine EndsWell.bind (f := fun _ => getState goal r s) (.const ((getState_noCrash hperm' hok hs hg).mono
    fun h => .inr (.inr h))) fun en K hK => ?_
  have hst' := hM M le_rfl
  have hen := hK K le_rfl
  have hquery : reachabilityQuery ((X.compiled d).withFuel N) r start goal = .ok (s, st, en) := by
    unfold reachabilityQuery
    rw [hs, ok_bind]
    dsimp only
    rw [hst', ok_bind, hen, ok_bind]
  obtain ⟨_, hl, hp⟩ := C46_query _ hperm' r hok start goal s st en hquery
  obtain ⟨hpl', hpast⟩ := Recipe.compile_ofPlain hperm' hok
    (fun c hm => ⟨by rw [hZ]; exact (hc.comps c hm).1.clear, by rw [hZ]; exact hpl c hm⟩) hs
  simp only [ok_bind]
  exact (C78_search_partial (hfin d) (X.zoneBounds d) s hpl' hpast (Recipe.compile_calm hperm' hok hq' hs) st en hl
    hp).endsWell.bind fun _ _ _ => .const trivial

/-! ## A case that meets the hypotheses -/

theorem exGoal_asked (k : Int) : (exGoal k).Asked (.component exClient none) := by
  refine .and (by simp) fun e he => ?_
  rcases List.mem_cons.1 he with rfl | he
  · exact .location _
  · rw [List.mem_singleton.1 he]
    refine .cmp fun x y hx hy => ?_
    cases hx
    cases hy
    exact .posConst (.chain (.clock (.inl rfl))) rfl

/-- Non-vacuity: the query `reachability: A -> A.L0 && A.u > k`; its goal is acceptable, and so is the system. -/
example (k : Int) : EndsWell ((Recipe.component exClient none).Refused (FinD 2) ∨
      StartRefused (FinD 2) (.component exClient none) none ∨ ¬ (exGoal k).Acceptable (.component exClient none)) fun n =>
    ((plainQueries (Z := FinD) false).withFuel n).run loadTwo (.reachability (.component "A" none) none (exGoal k)) := by
  refine C78_reachability_partial (fun _ => rfl) (fun d => closureLib_finite (finDBase d)) _ (plainQueries_fair _) loadTwo
    loadTwo_numbered _ (.component exClient none) 2 none rfl exOne_searchable
    (fun c hc => by rw [List.mem_singleton.1 hc]; exact ⟨Component.plain_of_plainB (by decide), exClient_deadlines⟩) ?_ trivial
    none (exGoal k) (fun e h => by cases h) (exGoal_asked k)
  intro c hc
  rw [List.mem_singleton.1 hc]
  exact exClient_complete

/-! ## Crashes -/

theorem crashes_eq {x : Res (QueryOutcome FedD)} (h : crashes x = true) :
    ∃ m, x = .error (.panic m) ∧ m ≠ "arithmetic overflow" := by
  unfold crashes at h
  split at h
  · exact ⟨_, rfl, of_decide_eq_true h⟩
  · cases h

/-- Queries where the library finds the bounds that are right for a goal that says nothing about clocks. -/
def openQueries : QueryEnv FedD := { plainQueries false with zoneBounds := fun _ _ _ => none }

/-- `x` is two ahead of `y` in `L1`, so that `L2` is never reached. -/
def exSkew : Component := ⟨"D", ⟨[], [("x", 1), ("y", 2)]⟩,
  [⟨"L0", none, .initial, "NORMAL"⟩, ⟨"L1", none, .normal, "NORMAL"⟩, ⟨"L2", none, .normal, "NORMAL"⟩],
  [⟨"e", "L0", "L1", .input, some (.eq (.var "y") (.int 2)), some [⟨"y", .int 0⟩], "a"⟩,
   ⟨"f", "L1", "L2", .input, some (.le (.dif (.var "x") (.var "y")) (.int 1)), none, "b"⟩]⟩

/-- The invariant of `L1` does not hold when it is entered. -/
def exAfter : Component := ⟨"D", ⟨[], [("x", 1)]⟩,
  [⟨"L0", none, .initial, "NORMAL"⟩, ⟨"L2", some (.ge (.var "x") (.int 5)), .normal, "NORMAL"⟩],
  [⟨"e", "L0", "L2", .input, none, some [⟨"x", .int 0⟩], "a"⟩]⟩

/-- The edge gives two values to `x`. -/
def exBoth : Component := ⟨"D", ⟨[], [("x", 1)]⟩,
  [⟨"L0", none, .initial, "NORMAL"⟩, ⟨"L2", none, .normal, "NORMAL"⟩],
  [⟨"e", "L0", "L2", .input, none, some [⟨"x", .int 0⟩, ⟨"x", .int 1⟩], "a"⟩]⟩

def loadOne (c : Component) : String → Res Component := fun n => if n = "D" then .ok c else .error (.err "unknown")

/-- `reachability: D -> D.L2` -/
def askL2 : QueryExpr := .reachability (.component "D" none) none (.location ⟨"D", none, "L2"⟩)

theorem askL2_asked {c : Component} : (StateExpr.location ⟨"D", none, "L2"⟩).Asked (.component c none) := .location _

/-- **C78** does not extend to components that compare clocks with each other: the search goes on with more clock values than
there are, finds a path into `L2`, and the program crashes when it follows the path again. -/
theorem C78_violated_difference : exSkew.Complete ∧ exSkew.UpdatesAgree ∧ exSkew.Deadlines 3 ∧
    ∃ m, openQueries.run (loadOne exSkew) askL2 = .error (.panic m) ∧ m ≠ "arithmetic overflow" := by
  have kx : IsClock exSkew.decls (.var "x") 1 := .inr ⟨"x", rfl, by rfl⟩
  have ky : IsClock exSkew.decls (.var "y") 2 := .inr ⟨"y", rfl, by rfl⟩
  refine ⟨⟨fun e he g hg => ?_, fun l hl g hg => ?_, by decide, by decide, fun e he us hu u hu' => ?_⟩, ?_, ?_,
    crashes_eq (by decide +kernel)⟩
  · simp only [exSkew, List.mem_cons, List.not_mem_nil, or_false] at he
    rcases he with rfl | rfl <;> cases hg
    · exact .posConst (.chain (.clock ky)) rfl
    · exact .diffConst (.posSub (.chain (.clock kx)) ky) rfl
  · simp only [exSkew, List.mem_cons, List.not_mem_nil, or_false] at hl
    rcases hl with rfl | rfl | rfl <;> cases hg
  · simp only [exSkew, List.mem_cons, List.not_mem_nil, or_false] at he
    rcases he with rfl | rfl <;> cases hu
    rw [List.mem_singleton.1 hu']
    exact ⟨⟨0, rfl⟩, by decide⟩
  · unfold Component.UpdatesAgree; decide
  · intro l hl v d hv hd h
    simp only [exSkew, List.mem_cons, List.not_mem_nil, or_false] at hl
    rcases hl with rfl | rfl | rfl <;> trivial

/-- **C78** does not extend to invariants that are lower bounds: the search waits until the invariant of the new location
holds, the decisions of the path are made for a location that can be entered at once. -/
theorem C78_violated_lower_bound : exAfter.Complete ∧ exAfter.UpdatesAgree ∧ exAfter.Plain ∧
    ∃ m, openQueries.run (loadOne exAfter) askL2 = .error (.panic m) ∧ m ≠ "arithmetic overflow" := by
  refine ⟨⟨fun e he g hg => ?_, fun l hl g hg => ?_, by decide, by decide, fun e he us hu u hu' => ?_⟩, ?_,
    Component.plain_of_plainB (by decide), crashes_eq (by decide +kernel)⟩
  · rw [List.mem_singleton.1 he] at hg; cases hg
  · simp only [exAfter, List.mem_cons, List.not_mem_nil, or_false] at hl
    rcases hl with rfl | rfl <;> cases hg
    exact goodGuard_ge rfl 5
  · rw [List.mem_singleton.1 he] at hu
    cases hu
    rw [List.mem_singleton.1 hu']
    exact ⟨⟨0, rfl⟩, by decide⟩
  · unfold Component.UpdatesAgree; decide

/-- **C78** does not extend to edges that assign two values to one clock: the search assigns one after the other, the decision
of the path is made as if no clock values were possible. -/
theorem C78_violated_two_values : exBoth.Complete ∧ exBoth.Plain ∧ exBoth.Deadlines 2 ∧
    ∃ m, openQueries.run (loadOne exBoth) askL2 = .error (.panic m) ∧ m ≠ "arithmetic overflow" := by
  refine ⟨⟨fun e he g hg => ?_, fun l hl g hg => ?_, by decide, by decide, fun e he us hu u hu' => ?_⟩,
    Component.plain_of_plainB (by decide), ?_, crashes_eq (by decide +kernel)⟩
  · rw [List.mem_singleton.1 he] at hg; cases hg
  · simp only [exBoth, List.mem_cons, List.not_mem_nil, or_false] at hl
    rcases hl with rfl | rfl <;> cases hg
  · rw [List.mem_singleton.1 he] at hu
    cases hu
    simp only [List.mem_cons, List.not_mem_nil, or_false] at hu'
    rcases hu' with rfl | rfl <;> exact ⟨⟨_, rfl⟩, by decide⟩
  · intro l hl v d hv hd h
    simp only [exBoth, List.mem_cons, List.not_mem_nil, or_false] at hl
    rcases hl with rfl | rfl <;> trivial

/-- **C78** does not extend to goals with negations: they are read, and crash. -/
theorem C78_violated_negation : ∃ m,
    (plainQueries (Z := FedD) false).answer loadTwo "reachability: A @ init -> !(A.u < 1)".toList = .error (.panic m) ∧
      m ≠ "arithmetic overflow" := crashes_eq (by decide +kernel)

end Reveaal
