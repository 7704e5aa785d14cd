import Verif.Model.Reachability
import Verif.Lemmas.Run
import Verif.Spec.Path

/-! # The reachability search: what is in the frontier and in the visited map -/

namespace Reveaal
open ZoneLib
variable {F : Type} [ZoneLib F]

omit [ZoneLib F] in
theorem TS.Follows.snoc {ts : TS F} {l l' : LocTree F} {path : List (Transition F × String)}
    (h : ts.Follows l path l') {t : Transition F} {a : String} {trans : List (Transition F)}
    (ha : ts.hasAction a = true) (hn : ts.next l' a = .ok trans) (ht : t ∈ trans) :
    ts.Follows l (path ++ [(t, a)]) t.target := by
  induction h with
  | nil l => exact .cons ha hn ht (.nil _)
  | cons ha' hn' ht' _ ih => exact .cons ha' hn' ht' (ih hn)

omit [ZoneLib F] in
theorem visitedZones_insert {m : List (LocId × List F)} {k id : LocId} {v : List F} :
    visitedZones (hmInsert k v m) id = if id = k then v else visitedZones m id := by
  unfold visitedZones
  induction m with
  | nil =>
    by_cases h : id = k
    · simp [hmInsert, h]
    · have : (id == k) = false := by simpa using h
      simp [hmInsert, List.lookup, h, this]
  | cons p m ih =>
    obtain ⟨k', v'⟩ := p
    unfold hmInsert
    by_cases hk : k' = k
    · subst hk
      by_cases h : id = k'
      · simp [h]
      · have : (id == k') = false := by simpa using h
        simp [List.lookup, h, this]
    · simp only [hk, if_false]
      by_cases h' : id = k'
      · subst h'
        simp [List.lookup, hk]
      · have : (id == k') = false := by simpa using h'
        simp only [List.lookup, this]
        exact ih

/-- Every visited zone belongs to a state that was put into the frontier at some time. -/
def VisitedFrom (m : List (LocId × List F)) (Q : List (State F)) : Prop :=
  ∀ id, ∀ z ∈ visitedZones m id, ∃ s ∈ Q, s.loc.id = id ∧ s.zone = z

omit [ZoneLib F] in
theorem VisitedFrom.mono {m : List (LocId × List F)} {Q R : List (State F)} (h : VisitedFrom m Q)
    (hs : ∀ s ∈ Q, s ∈ R) : VisitedFrom m R := fun id z hz =>
  let ⟨s, h1, h2⟩ := h id z hz
  ⟨s, hs s h1, h2⟩

/-- The sub-paths added to the frontier while one transition, action or state is handled. -/
structure Added (ts : TS F) (sp : SubPath F) (new : List (SubPath F)) : Prop where
  step : ∀ n ∈ new, ∃ t a trans, ts.hasAction a = true ∧ ts.next sp.dest.loc a = .ok trans ∧ t ∈ trans ∧
    n.taken = (t, a) :: sp.taken ∧ n.dest.loc = t.target

omit [ZoneLib F] in
theorem Added.append {ts : TS F} {sp : SubPath F} {a b : List (SubPath F)} (ha : Added ts sp a)
    (hb : Added ts sp b) : Added ts sp (a ++ b) :=
  ⟨fun n hn => (List.mem_append.1 hn).elim (ha.step n) (hb.step n)⟩

/-- A transition is covered by a list of states. -/
def TransCovered (Q : List (State F)) (s : State F) (t : Transition F) : Prop :=
  (t.useTransition s).1 = true → ∃ q ∈ Q, q.loc.id = t.target.id ∧ SuccSet t (den s.zone) ⊆ den q.zone

theorem TransCovered.mono {Q R : List (State F)} {s : State F} {t : Transition F}
    (h : TransCovered Q s t) (hs : ∀ s ∈ Q, s ∈ R) : TransCovered R s t := fun hu =>
  let ⟨q, h1, h2⟩ := h hu
  ⟨q, hs q h1, h2⟩

theorem takeTransition_spec {ts : TS F} {extra : Bounds} {sp : SubPath F} {a : String}
    {t : Transition F} {trans : List (Transition F)} (ha : ts.hasAction a = true)
    (hn : ts.next sp.dest.loc a = .ok trans) (ht : t ∈ trans) (hu : UpdatesOk t.updates (dim F))
    {st st' : Search F} {D : List (State F)} (hv : VisitedFrom st.visited (D ++ st.frontier.map (·.dest)))
    (h : takeTransition ts extra sp a t st = .ok st') :
    ∃ new, st'.frontier = st.frontier ++ new ∧ Added ts sp new ∧
      VisitedFrom st'.visited (D ++ st'.frontier.map (·.dest)) ∧
      TransCovered (D ++ st'.frontier.map (·.dest)) sp.dest t := by
  unfold takeTransition at h
  cases hus : t.useTransition sp.dest with
  | mk b ns =>
    rw [hus] at h
    cases b with
    | false =>
      cases h
      refine ⟨[], by simp, ⟨by simp⟩, hv, ?_⟩
      intro hc; rw [hus] at hc; cases hc
    | true =>
      dsimp only at h
      obtain ⟨ns', hns, h⟩ := bind_ok h
      have hloc := ((C05_use_transition t sp.dest hu).2 (by rw [hus])).1
      have hz := ((C05_use_transition t sp.dest hu).2 (by rw [hus])).2
      rw [hus] at hloc hz
      dsimp only at hloc hz
      obtain ⟨b, _, hns⟩ := bind_ok hns
      cases hns
      dsimp only at h
      have hsub : SuccSet t (den sp.dest.zone) ⊆ den (extrapolate ns.zone (b.add extra)) := by
        rw [← hz]; exact extrapolate_sup _ _
      split at h
      · cases h
        refine ⟨_, rfl, ⟨?_⟩, ?_, ?_⟩
        · intro n hn'
          rw [List.mem_singleton] at hn'; subst hn'
          exact ⟨t, a, trans, ha, hn, ht, rfl, hloc⟩
        · intro id z hz'
          rw [visitedZones_insert] at hz'
          split at hz'
          · rename_i hid
            rcases List.mem_append.1 hz' with hz' | hz'
            · rw [← hid] at hz'
              obtain ⟨s, hs, h1, h2⟩ := hv id z (List.mem_of_mem_filter hz')
              refine ⟨s, ?_, h1, h2⟩
              simp only [List.map_append, List.mem_append] at hs ⊢; tauto
            · rw [List.mem_singleton] at hz'; subst hz'
              exact ⟨⟨ns.loc, extrapolate ns.zone (b.add extra)⟩, by simp, hid.symm, rfl⟩
          · obtain ⟨s, hs, h1, h2⟩ := hv id z hz'
            refine ⟨s, ?_, h1, h2⟩
            simp only [List.map_append, List.mem_append] at hs ⊢; tauto
        · intro _
          exact ⟨⟨ns.loc, extrapolate ns.zone (b.add extra)⟩, by simp, by rw [hloc], hsub⟩
      · rename_i hex
        cases h
        refine ⟨[], by simp, ⟨by simp⟩, ?_, ?_⟩
        · intro id z hz'
          rw [visitedZones_insert] at hz'
          split at hz'
          · rename_i hid; rw [← hid] at hz'; exact hv id z hz'
          · exact hv id z hz'
        · intro _
          simp only [Bool.not_eq_true', Bool.not_eq_false, List.any_eq_true] at hex
          obtain ⟨z, hz', hzs⟩ := hex
          obtain ⟨s, hs, h1, h2⟩ := hv _ z hz'
          refine ⟨s, hs, by rw [h1, hloc], ?_⟩
          rw [h2]
          exact hsub.trans ((subsetEq_iff _ _).1 hzs)

theorem takeTransitions_spec {ts : TS F} {extra : Bounds} {sp : SubPath F} {a : String}
    {trans : List (Transition F)} (ha : ts.hasAction a = true)
    (hn : ts.next sp.dest.loc a = .ok trans) (hu : ∀ t ∈ trans, UpdatesOk t.updates (dim F))
    {D : List (State F)} : ∀ {tl : List (Transition F)} (_ : ∀ t ∈ tl, t ∈ trans) {st st' : Search F},
    VisitedFrom st.visited (D ++ st.frontier.map (·.dest)) →
    takeTransitions ts extra sp a tl st = .ok st' →
    ∃ new, st'.frontier = st.frontier ++ new ∧ Added ts sp new ∧
      VisitedFrom st'.visited (D ++ st'.frontier.map (·.dest)) ∧
      ∀ t ∈ tl, TransCovered (D ++ st'.frontier.map (·.dest)) sp.dest t := by
  intro tl
  induction tl with
  | nil =>
    intro _ st st' hv h
    cases h
    exact ⟨[], by simp, ⟨by simp⟩, hv, by simp⟩
  | cons t tl ih =>
    intro hm st st' hv h
    rw [takeTransitions] at h
    obtain ⟨st1, h1, h⟩ := bind_ok h
    obtain ⟨n1, f1, a1, v1, c1⟩ := takeTransition_spec ha hn (hm t (by simp)) (hu t (hm t (by simp))) hv h1
    obtain ⟨n2, f2, a2, v2, c2⟩ := ih (fun t ht => hm t (by simp [ht])) v1 h
    refine ⟨n1 ++ n2, by rw [f2, f1, List.append_assoc], a1.append a2, v2, fun t' ht' => ?_⟩
    rcases List.mem_cons.1 ht' with rfl | ht'
    · refine c1.mono fun s hs => ?_
      rw [f2]
      simp only [List.map_append, List.mem_append] at hs ⊢; tauto
    · exact c2 t' ht'

theorem takeActions_spec {s : Sys F} (hs : s.Good) {extra : Bounds} {sp : SubPath F}
    (hl : s.IsLoc sp.dest.loc) {D : List (State F)} : ∀ {as : List String}
    (_ : ∀ a ∈ as, s.ts.hasAction a = true) {st st' : Search F},
    VisitedFrom st.visited (D ++ st.frontier.map (·.dest)) →
    takeActions s.ts extra sp as st = .ok st' →
    ∃ new, st'.frontier = st.frontier ++ new ∧ Added s.ts sp new ∧
      VisitedFrom st'.visited (D ++ st'.frontier.map (·.dest)) ∧
      ∀ a ∈ as, ∀ trans, s.ts.next sp.dest.loc a = .ok trans → ∀ t ∈ trans,
        TransCovered (D ++ st'.frontier.map (·.dest)) sp.dest t := by
  intro as
  induction as with
  | nil =>
    intro _ st st' hv h
    cases h
    exact ⟨[], by simp, ⟨by simp⟩, hv, by simp⟩
  | cons a as ih =>
    intro hm st st' hv h
    rw [takeActions] at h
    obtain ⟨trans, hn, h⟩ := bind_ok h
    obtain ⟨st1, h1, h⟩ := bind_ok h
    obtain ⟨n1, f1, a1, v1, c1⟩ := takeTransitions_spec (hm a (by simp)) hn
      (fun t ht => (hs.next_ok hl (hm a (by simp)) hn t ht).2.upd) (fun _ h => h) hv h1
    obtain ⟨n2, f2, a2, v2, c2⟩ := ih (fun a ha => hm a (by simp [ha])) v1 h
    refine ⟨n1 ++ n2, by rw [f2, f1, List.append_assoc], a1.append a2, v2, fun a' ha' tr htr t ht => ?_⟩
    rcases List.mem_cons.1 ha' with rfl | ha'
    · rw [hn] at htr; cases htr
      refine (c1 t ht).mono fun s hs => ?_
      rw [f2]
      simp only [List.map_append, List.mem_append] at hs ⊢; tauto
    · exact c2 a' ha' tr htr t ht

/-- The invariant of the main loop; `D` are the states handled so far. -/
structure SearchInv (s : Sys F) (actions : List String) (start goal : State F) (D : List (State F))
    (st : Search F) : Prop where
  startMem : start ∈ D ++ st.frontier.map (·.dest)
  locs : ∀ q ∈ D ++ st.frontier.map (·.dest), s.IsLoc q.loc
  visited : VisitedFrom st.visited (D ++ st.frontier.map (·.dest))
  notReached : ∀ q ∈ D, reachedEnd q goal = .ok false
  covered : ∀ q ∈ D, ∀ a ∈ actions, ∀ trans, s.ts.next q.loc a = .ok trans → ∀ t ∈ trans,
    TransCovered (D ++ st.frontier.map (·.dest)) q t
  paths : ∀ sp ∈ st.frontier, s.ts.Follows start.loc sp.taken.reverse sp.dest.loc
  origin : ∀ sp ∈ st.frontier, sp.taken = [] → sp.dest = start

theorem searchLoop_spec {s : Sys F} (hs : s.Good) {extra : Bounds} {actions : List String}
    (ha : ∀ a ∈ actions, s.ts.hasAction a = true) {start goal : State F} : ∀ (fuel : Nat)
    (st : Search F) (D : List (State F)) (r : Option (List (Decision F))),
    SearchInv s actions start goal D st →
    searchLoop s.ts extra actions start goal fuel st = .ok r →
    (r = none ∧ ∃ D', SearchInv s actions start goal D' ⟨[], []⟩) ∨
    ∃ sp p, r = some p ∧ s.IsLoc sp.dest.loc ∧ reachedEnd sp.dest goal = .ok true ∧
      s.ts.Follows start.loc sp.taken.reverse sp.dest.loc ∧ makePath sp start = .ok p ∧
      (sp.taken = [] → sp.dest = start) := by
  intro fuel
  induction fuel with
  | zero => intro st D r _ h; cases h
  | succ n ih =>
    intro st D r inv h
    obtain ⟨frontier, visited⟩ := st
    rw [searchLoop] at h
    cases frontier with
    | nil =>
      cases h
      left
      refine ⟨rfl, D, inv.startMem, inv.locs, ?_, inv.notReached, inv.covered, by simp, by simp⟩
      intro id z hz; simp [visitedZones] at hz
    | cons sp rest =>
      dsimp only at h
      obtain ⟨b, hb, h⟩ := bind_ok h
      cases b with
      | true =>
        simp only [if_true] at h
        obtain ⟨p, hp, h⟩ := bind_ok h
        cases h
        right
        exact ⟨sp, p, rfl, inv.locs _ (by simp), hb, inv.paths sp (by simp), hp,
          inv.origin sp (by simp)⟩
      | false =>
        simp only [Bool.false_eq_true, if_false] at h
        obtain ⟨st1, h1, h⟩ := bind_ok h
        have hl : s.IsLoc sp.dest.loc := inv.locs _ (by simp)
        have hv : VisitedFrom visited ((D ++ [sp.dest]) ++ rest.map (·.dest)) := by
          have := inv.visited; simpa using this
        obtain ⟨new, f1, a1, v1, c1⟩ := takeActions_spec hs hl (D := D ++ [sp.dest]) ha hv h1
        refine ih st1 (D ++ [sp.dest]) r ⟨?_, ?_, v1, ?_, ?_, ?_, ?_⟩ h
        · have := inv.startMem
          rw [f1]; simp only [List.map_cons, List.map_append, List.mem_append, List.mem_cons] at this ⊢
          simp only [List.not_mem_nil, or_false]; tauto
        · intro q hq
          rw [f1] at hq
          simp only [List.map_append, List.mem_append] at hq
          rcases hq with (hq | hq) | hq | hq
          · exact inv.locs q (by simp [hq])
          · rw [List.mem_singleton] at hq; subst hq; exact hl
          · exact inv.locs q (by simp only [List.map_cons, List.mem_append, List.mem_cons]; tauto)
          · obtain ⟨n, hn, rfl⟩ := List.mem_map.1 hq
            obtain ⟨t, a, trans, h2, h3, h4, _, h6⟩ := a1.step n hn
            rw [h6]
            exact (hs.next_ok hl h2 h3 t h4).1
        · intro q hq
          rcases List.mem_append.1 hq with hq | hq
          · exact inv.notReached q hq
          · rw [List.mem_singleton] at hq; subst hq; exact hb
        · intro q hq a ha' trans htr t ht
          rcases List.mem_append.1 hq with hq | hq
          · refine (inv.covered q hq a ha' trans htr t ht).mono fun x hx => ?_
            rw [f1]
            simp only [List.map_cons, List.map_append, List.mem_append, List.mem_cons,
              List.not_mem_nil, or_false] at hx ⊢
            tauto
          · rw [List.mem_singleton] at hq; subst hq
            exact c1 a ha' trans htr t ht
        · intro sp' hsp'
          rw [f1] at hsp'
          rcases List.mem_append.1 hsp' with hsp' | hsp'
          · exact inv.paths sp' (by simp only [List.mem_cons]; exact .inr hsp')
          · obtain ⟨t, a, trans, h2, h3, h4, h5, h6⟩ := a1.step sp' hsp'
            rw [h5, h6, List.reverse_cons]
            exact (inv.paths sp (by simp)).snoc h2 h3 h4
        · intro sp' hsp' he
          rw [f1] at hsp'
          rcases List.mem_append.1 hsp' with hsp' | hsp'
          · exact inv.origin sp' (by simp only [List.mem_cons]; exact .inr hsp') he
          · obtain ⟨t, a, trans, h2, h3, h4, h5, h6⟩ := a1.step sp' hsp'
            rw [h5] at he; cases he

omit [ZoneLib F] in
theorem mem_sortedActions {ts : TS F} {a : String} : a ∈ ts.sortedActions ↔ ts.hasAction a = true := by
  unfold TS.sortedActions TS.hasAction
  rw [List.mem_insertionSort, mem_mkSet]; simp

theorem searchInv_init {s : Sys F} {start goal : State F} (hl : s.IsLoc start.loc) :
    SearchInv s s.ts.sortedActions start goal []
      ⟨[⟨[], start⟩], [(start.loc.id, [start.zone])]⟩ where
  startMem := by simp
  locs := by simpa using hl
  visited := by
    intro id z hz
    unfold visitedZones at hz
    by_cases h : id = start.loc.id
    · simp [h] at hz; exact ⟨start, by simp, h.symm, hz.symm⟩
    · have : (id == start.loc.id) = false := by simpa using h
      simp [List.lookup, this] at hz
  notReached := by simp
  covered := by simp
  paths := by
    intro sp hsp
    rw [List.mem_singleton] at hsp; subst hsp
    exact .nil _
  origin := by
    intro sp hsp _
    rw [List.mem_singleton] at hsp; subst hsp; rfl

end Reveaal
